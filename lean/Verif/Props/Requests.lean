import Verif.Model.Requests
/-!
# C203: what a receiving call leaves in the caller's tensor

For every device, GPU-aware MPI or not, every time of delivery and everything else the process does meanwhile: after `Wait` the caller's tensor holds the delivered data.  `wait()` does not do this (false in heat, and used by heat itself).
-/
namespace Heat
variable {I α : Type}

/-- The caller's tensor, seen through the permutation (none: as it is), holds the data delivered by MPI. -/
def Received (perm : Option (I → I)) (content d : I → α) : Prop :=
  match perm with
  | none => content = d
  | some σ => ∀ i, content (σ i) = d i

/-- Exchanging two axes twice changes nothing. -/
def Swap (perm : Option (I → I)) : Prop := ∀ σ, perm = some σ → ∀ i, σ (σ i) = i

/-- The rest of the program does not write the tensors in use by the communication (as MPI demands). -/
def Quiet (l : List (DevStep I α)) (used : List Nat) : Prop := ∀ k c, DevStep.write k c ∈ l → k ∉ used

/-- The state between the call and the wait. -/
structure ReqInv (m : DevMem I α) (b : Nat) (r : DevReq I α) (d : I → α) (s : DevMem I α × DevReq I α) : Prop where
  req : s.2 = { r with data := s.2.data }
  data : s.2.data = some d ∨ (s.2.data = none ∧ s.1.val r.target = writeView r.view d)
  lt : b < s.1.next ∧ r.target < s.1.next
  gpu : s.1.gpu b = m.gpu b
  keep : r.target ≠ b → s.1.val b = m.val b

theorem reqInv_deliver {m : DevMem I α} {b : Nat} {r : DevReq I α} {d : I → α} {s : DevMem I α × DevReq I α} (h : ReqInv m b r d s) : ReqInv m b r d (s.2.deliver s.1) ∧ (s.2.deliver s.1).2.data = none := by
  obtain ⟨hr, hd, hl, hg, hk⟩ := h
  have ht : s.2.target = r.target := by rw [hr]
  have hv : s.2.view = r.view := by rw [hr]
  rcases hd with hd | ⟨hd, hv'⟩
  · have e : s.2.deliver s.1 = (s.1.write r.target (writeView r.view d), { r with data := none }) := by
      unfold DevReq.deliver
      rw [hd]
      simp only [ht, hv]
      rw [hr]
    rw [e]
    refine ⟨⟨rfl, Or.inr ⟨rfl, by simp [DevMem.write]⟩, hl, hg, fun hne => ?_⟩, rfl⟩
    simp only [DevMem.write]
    rw [if_neg (Ne.symm hne)]
    exact hk hne
  · have e : s.2.deliver s.1 = s := by
      unfold DevReq.deliver
      rw [hd]
    rw [e]
    exact ⟨⟨hr, Or.inr ⟨hd, hv'⟩, hl, hg, hk⟩, hd⟩

theorem reqInv_steps {m : DevMem I α} {b : Nat} {r : DevReq I α} {d : I → α} (l : List (DevStep I α)) : ∀ {s : DevMem I α × DevReq I α}, ReqInv m b r d s → Quiet l [b, r.target] → ReqInv m b r d (devSteps s l) := by
  induction l with
  | nil => exact fun h _ => h
  | cons x t ih =>
    intro s h hq
    have ht : Quiet t [b, r.target] := fun k c hm => hq k c (List.mem_cons_of_mem _ hm)
    refine ih (s := devStep s x) ?_ ht
    cases x with
    | write k c =>
      have hk := hq k c (List.mem_cons_self ..)
      simp only [List.mem_cons, List.not_mem_nil, or_false, not_or] at hk
      refine ⟨h.req, ?_, h.lt, h.gpu, fun hne => ?_⟩
      · rcases h.data with hd | ⟨hd, hv⟩
        · exact Or.inl hd
        · refine Or.inr ⟨hd, ?_⟩
          simp only [devStep, DevMem.write]
          rw [if_neg (Ne.symm hk.2)]
          exact hv
      · simp only [devStep, DevMem.write]
        rw [if_neg (Ne.symm hk.1)]
        exact h.keep hne
    | alloc c =>
      have h1 : b ≠ s.1.next := Nat.ne_of_lt h.lt.1
      have h2 : r.target ≠ s.1.next := Nat.ne_of_lt h.lt.2
      refine ⟨h.req, ?_, ⟨Nat.lt_succ_of_lt h.lt.1, Nat.lt_succ_of_lt h.lt.2⟩, ?_, fun hne => ?_⟩
      · rcases h.data with hd | ⟨hd, hv⟩
        · exact Or.inl hd
        · refine Or.inr ⟨hd, ?_⟩
          simp only [devStep, DevMem.alloc]
          rw [if_neg h2]
          exact hv
      · simp only [devStep, DevMem.alloc]
        rw [if_neg h1]
        exact h.gpu
      · simp only [devStep, DevMem.alloc]
        rw [if_neg h1]
        exact h.keep hne
    | deliver => exact (reqInv_deliver h).1

theorem reqInv_start {m : DevMem I α} {b : Nat} (hb : b < m.next) (aware : Bool) (perm : Option (I → I)) (d : I → α) : ReqInv m b (startRecv aware m b perm d).2 d (startRecv aware m b perm d) := by
  unfold startRecv
  dsimp only
  split
  · refine ⟨rfl, Or.inl rfl, ⟨Nat.lt_succ_of_lt hb, Nat.lt_succ_self _⟩, ?_, fun _ => ?_⟩
    · simp only [DevMem.alloc]
      rw [if_neg (Nat.ne_of_lt hb)]
    · simp only [DevMem.alloc]
      rw [if_neg (Nat.ne_of_lt hb)]
  · exact ⟨rfl, Or.inl rfl, ⟨hb, hb⟩, rfl, fun hne => absurd rfl hne⟩

/-- After `Wait` the caller's tensor holds what MPI delivered: wherever the tensor is, whether or not MPI knows about GPUs, whenever MPI delivers, whatever the process does meanwhile with other tensors. -/
theorem wait_received {m : DevMem I α} {b : Nat} (hb : b < m.next) (aware : Bool) {perm : Option (I → I)} (hσ : Swap perm) (d : I → α) {l : List (DevStep I α)} (hq : Quiet l [b, (startRecv aware m b perm d).2.target]) :
    let s := devSteps (startRecv aware m b perm d) l
    Received perm ((s.2.waitUpper aware s.1).1.val b) d := by
  intro s
  have hi : ReqInv m b (startRecv aware m b perm d).2 d s := reqInv_steps l (reqInv_start hb aware perm d) hq
  obtain ⟨hi', hn⟩ := reqInv_deliver hi
  have hgpu := hi'.gpu
  have hval : (s.2.deliver s.1).1.val (startRecv aware m b perm d).2.target = writeView (startRecv aware m b perm d).2.view d := by
    rcases hi'.data with h | h
    · rw [hn] at h; cases h
    · exact h.2
  have htn : s.2.tensor = b := by
    rw [hi.req]; unfold startRecv; dsimp only; split <;> rfl
  have htg : s.2.target = (startRecv aware m b perm d).2.target := by rw [hi.req]
  have hpm : s.2.perm = perm := by
    rw [hi.req]; unfold startRecv; dsimp only; split <;> rfl
  have hrv : s.2.recvView = (startRecv aware m b perm d).2.recvView := by rw [hi.req]
  unfold DevReq.waitUpper
  dsimp only
  rw [htn, htg, hpm, hrv]
  have hst : staged (s.2.deliver s.1).1 aware b = staged m aware b := by unfold staged; rw [hgpu]
  rw [hst]
  cases hs : staged m aware b with
  | true =>
    have e : startRecv aware m b perm d = (m.alloc fun i => m.val b (perm.getD id i), ⟨m.next, id, some d, b, id, perm⟩) := by
      unfold startRecv; simp [hs]
    rw [e] at hval ⊢
    simp only [if_true, DevMem.write]
    dsimp only at hval
    rw [hval]
    cases perm with
    | none => rfl
    | some σ =>
      intro i
      simp only [writeView, id_eq]
      rw [hσ σ rfl i]
  | false =>
    have e : startRecv aware m b perm d = (m, ⟨b, perm.getD id, some d, b, perm.getD id, perm⟩) := by
      unfold startRecv; simp [hs]
    rw [e] at hval
    dsimp only at hval
    simp only [Bool.false_eq_true, if_false]
    rw [hval]
    cases perm with
    | none => rfl
    | some σ =>
      intro i
      simp only [writeView, Option.getD_some]
      rw [hσ σ rfl i]

/-- `wait()` (lower case) does the same as long as the tensor is not staged. -/
theorem lower_wait_partial {m : DevMem I α} {b : Nat} (hb : b < m.next) {aware : Bool} (hu : m.gpu b = false ∨ aware = true) {perm : Option (I → I)} (hσ : Swap perm) (d : I → α) {l : List (DevStep I α)} (hq : Quiet l [b]) :
    let s := devSteps (startRecv aware m b perm d) l
    Received perm ((s.2.waitLower s.1).1.val b) d := by
  intro s
  have hs : staged m aware b = false := by unfold staged; rcases hu with h | h <;> simp [h]
  have e : startRecv aware m b perm d = (m, ⟨b, perm.getD id, some d, b, perm.getD id, perm⟩) := by
    unfold startRecv; simp [hs]
  have hq' : Quiet l [b, (startRecv aware m b perm d).2.target] := by
    intro k c hm
    rw [e]
    simpa using hq k c hm
  have hi : ReqInv m b (startRecv aware m b perm d).2 d s := reqInv_steps l (reqInv_start hb aware perm d) hq'
  obtain ⟨hi', hn⟩ := reqInv_deliver hi
  have hval : (s.2.deliver s.1).1.val b = writeView (perm.getD id) d := by
    rcases hi'.data with h | h
    · rw [hn] at h; cases h
    · rw [e] at h; exact h.2
  unfold DevReq.waitLower
  rw [hval]
  cases perm with
  | none => rfl
  | some σ =>
    intro i
    simp only [writeView, Option.getD_some]
    rw [hσ σ rfl i]

/-- False in heat: on a GPU without GPU-aware MPI the caller's tensor is after `wait()` what it was before the call; the delivered data are in a copy nobody reads. -/
theorem lower_wait_violated {m : DevMem I α} {b : Nat} (hb : b < m.next) (hg : m.gpu b = true) (perm : Option (I → I)) (d : I → α) {l : List (DevStep I α)} (hq : Quiet l [b, m.next]) :
    let s := devSteps (startRecv false m b perm d) l
    (s.2.waitLower s.1).1.val b = m.val b := by
  intro s
  have hs : staged m false b = true := by unfold staged; simp [hg]
  have e : startRecv false m b perm d = (m.alloc fun i => m.val b (perm.getD id i), ⟨m.next, id, some d, b, id, perm⟩) := by
    unfold startRecv; simp [hs]
  have hi : ReqInv m b (startRecv false m b perm d).2 d s := reqInv_steps l (reqInv_start hb false perm d) (by rw [e]; exact hq)
  have h := (reqInv_deliver hi).1.keep
  rw [e] at h
  exact h (Nat.ne_of_gt hb)

/-- Consequence: the non-blocking `DataParallel` adds its own scaled gradient instead of the sum over the processes, if the parameters are on GPUs and MPI is not aware of them. -/
theorem nonblocking_gradient_violated {m : DevMem I α} {b procs : Nat} (hb : b < m.next) (hg : m.gpu b = true) (hp : 2 ≤ procs) (sum : I → α) {l : List (DevStep I α)} (hq : Quiet l [b, m.next]) : nonblockingGrad false procs m b sum l = some (m.val b) := by
  unfold nonblockingGrad
  rw [if_neg (by omega)]
  simp only [AnyReq.waitLower, Option.map_some]
  rw [lower_wait_violated hb hg none sum hq]

/-- In the other cases it adds the sum, on at least two processes. -/
theorem nonblocking_gradient_partial {m : DevMem I α} {b procs : Nat} (hb : b < m.next) {aware : Bool} (hu : m.gpu b = false ∨ aware = true) (hp : 2 ≤ procs) (sum : I → α) {l : List (DevStep I α)} (hq : Quiet l [b]) : nonblockingGrad aware procs m b sum l = some sum := by
  unfold nonblockingGrad
  rw [if_neg (by omega)]
  simp only [AnyReq.waitLower, Option.map_some]
  have h := lower_wait_partial hb hu (perm := none) (by intro σ h; cases h) sum hq
  exact congrArg some h

/-- False in heat: on one process the non-blocking `DataParallel` raises `AttributeError`, since the request has no handle. -/
theorem nonblocking_single_violated (aware : Bool) {procs : Nat} (hp : procs ≤ 1) (m : DevMem I α) (b : Nat) (sum : I → α) (l : List (DevStep I α)) : nonblockingGrad aware procs m b sum l = none := by
  unfold nonblockingGrad
  rw [if_pos hp]
  rfl

/-- False in heat: shuffling a dataset on GPUs without GPU-aware MPI puts the uninitialised memory of `new_data` into the dataset. -/
theorem shuffle_received_violated {m : DevMem I α} {b : Nat} (hb : b < m.next) (hg : m.gpu b = true) (d : I → α) {l : List (DevStep I α)} (hq : Quiet l [b, m.next]) : shuffleReceived false m b d l = m.val b := lower_wait_violated hb hg none d hq

/-- In the other cases the dataset gets the data sent by the previous process. -/
theorem shuffle_received_partial {m : DevMem I α} {b : Nat} (hb : b < m.next) {aware : Bool} (hu : m.gpu b = false ∨ aware = true) (d : I → α) {l : List (DevStep I α)} (hq : Quiet l [b]) : shuffleReceived aware m b d l = d :=
  lower_wait_partial hb hu (perm := none) (by intro σ h; cases h) d hq

/-- A blocking receive leaves the delivered data in the caller's tensor and changes no other tensor of the program. -/
theorem blocking_received {m : DevMem I α} {b : Nat} (hb : b < m.next) (aware : Bool) {perm : Option (I → I)} (hσ : Swap perm) (d : I → α) : Received perm ((recvBlocking aware m b perm d).val b) d ∧ ∀ k, k < m.next → k ≠ b → (recvBlocking aware m b perm d).val k = m.val k := by
  cases hs : staged m aware b with
  | true =>
    unfold recvBlocking startRecv DevReq.deliver
    simp only [hs, if_true, DevMem.write, DevMem.alloc]
    constructor
    · cases perm with
      | none => rfl
      | some σ =>
        intro i
        simp only [writeView, id_eq, Option.getD_some]
        rw [hσ σ rfl i]
    · intro k hk hkb
      rw [if_neg hkb, if_neg (Nat.ne_of_lt hk), if_neg (Nat.ne_of_lt hk)]
  | false =>
    unfold recvBlocking startRecv DevReq.deliver
    simp only [hs, Bool.false_eq_true, if_false, DevMem.write, if_true]
    constructor
    · cases perm with
      | none => rfl
      | some σ =>
        intro i
        simp only [writeView, Option.getD_some]
        rw [hσ σ rfl i]
    · intro k hk hkb
      rw [if_neg hkb]

/-- Tensors which the rest of the program does not write are as before after a call and its `Wait`. -/
theorem wait_others {m : DevMem I α} {b : Nat} (aware : Bool) (perm : Option (I → I)) (d : I → α) {l : List (DevStep I α)} {k : Nat} (hk : k < m.next) (hkb : k ≠ b) (hq : Quiet l [k]) :
    let s := devSteps (startRecv aware m b perm d) l
    (s.2.waitUpper aware s.1).1.val k = m.val k := by
  have step : ∀ (l : List (DevStep I α)) (s : DevMem I α × DevReq I α), (k < s.1.next ∧ k ≠ s.2.target ∧ s.2.tensor = b ∧ s.1.val k = m.val k) → Quiet l [k] → k < (devSteps s l).1.next ∧ k ≠ (devSteps s l).2.target ∧ (devSteps s l).2.tensor = b ∧ (devSteps s l).1.val k = m.val k := by
    intro l
    induction l with
    | nil => exact fun s h _ => h
    | cons x t ih =>
      intro s h hq
      refine ih (devStep s x) ?_ fun k c hm => hq k c (List.mem_cons_of_mem _ hm)
      cases x with
      | write j c =>
        have hj := hq j c (List.mem_cons_self ..)
        simp only [List.mem_cons, List.not_mem_nil, or_false] at hj
        refine ⟨h.1, h.2.1, h.2.2.1, ?_⟩
        simp only [devStep, DevMem.write]
        rw [if_neg (Ne.symm hj)]
        exact h.2.2.2
      | alloc c =>
        refine ⟨Nat.lt_succ_of_lt h.1, h.2.1, h.2.2.1, ?_⟩
        simp only [devStep, DevMem.alloc]
        rw [if_neg (Nat.ne_of_lt h.1)]
        exact h.2.2.2
      | deliver =>
        simp only [devStep, DevReq.deliver]
        split
        · exact h
        · refine ⟨h.1, h.2.1, h.2.2.1, ?_⟩
          simp only [DevMem.write]
          rw [if_neg h.2.1]
          exact h.2.2.2
  intro s
  have h0 : k < (startRecv aware m b perm d).1.next ∧ k ≠ (startRecv aware m b perm d).2.target ∧ (startRecv aware m b perm d).2.tensor = b ∧ (startRecv aware m b perm d).1.val k = m.val k := by
    unfold startRecv
    dsimp only
    split
    · refine ⟨Nat.lt_succ_of_lt hk, Nat.ne_of_lt hk, rfl, ?_⟩
      simp only [DevMem.alloc]
      rw [if_neg (Nat.ne_of_lt hk)]
    · exact ⟨hk, hkb, rfl, rfl⟩
  have h := step l _ h0 hq
  have hd : (s.2.deliver s.1).1.val k = m.val k := by
    unfold DevReq.deliver
    split
    · exact h.2.2.2
    · simp only [DevMem.write]
      rw [if_neg h.2.1]
      exact h.2.2.2
  unfold DevReq.waitUpper
  dsimp only
  split
  · simp only [DevMem.write]
    rw [if_neg (by rw [h.2.2.1]; exact hkb)]
    exact hd
  · exact hd

/-- A second `Wait` changes nothing if the tensor is not staged ... -/
theorem wait_twice_partial {m : DevMem I α} {r : DevReq I α} {aware : Bool} (hd : r.data = none) (hu : m.gpu r.tensor = false ∨ aware = true) : (r.waitUpper aware m).1 = m := by
  have hs : staged m aware r.tensor = false := by unfold staged; rcases hu with h | h <;> simp [h]
  unfold DevReq.waitUpper DevReq.deliver
  simp [hd, hs]

/-- ... but on a GPU without GPU-aware MPI it overwrites whatever the program has written since, and for another axis it leaves the data with the axes exchanged (false in heat). -/
theorem wait_twice_violated {m : DevMem I α} {b : Nat} (hb : b < m.next) (hg : m.gpu b = true) {σ : I → I} (hσ : ∀ i, σ (σ i) = i) (d c : I → α) :
    let s := startRecv false m b (some σ) d
    let w := s.2.waitUpper false s.1
    (w.1.val b = fun i => d (σ i)) ∧ ((w.2.waitUpper false (w.1.write b c)).1.val b = d) := by
  have hs : staged m false b = true := by unfold staged; simp [hg]
  have e : startRecv false m b (some σ) d = (m.alloc fun i => m.val b (σ i), ⟨m.next, id, some d, b, id, some σ⟩) := by
    unfold startRecv; simp [hs]
  intro s w
  have hw : w = (((m.alloc fun i => m.val b (σ i)).write m.next d).write b (fun i => d (σ i)), ⟨m.next, id, none, b, σ, some σ⟩) := by
    show (startRecv false m b (some σ) d).2.waitUpper false (startRecv false m b (some σ) d).1 = _
    rw [e]
    unfold DevReq.waitUpper DevReq.deliver staged
    simp [DevMem.write, DevMem.alloc, writeView, Nat.ne_of_lt hb, hg]
    rfl
  rw [hw]
  refine ⟨by simp [DevMem.write], ?_⟩
  unfold DevReq.waitUpper DevReq.deliver staged
  have hnb : m.next ≠ b := Nat.ne_of_gt hb
  simp [DevMem.write, DevMem.alloc, Nat.ne_of_lt hb, hg, hnb, hσ]

/-- On one process `Wait` of a collective request returns and changes nothing. -/
theorem wait_single (aware : Bool) (m : DevMem I α) : (AnyReq.noHandle : AnyReq I α).waitUpper aware m = some (m, .noHandle) := rfl

/-- The message of a nonblocking send is the content at the call, at any time until the wait, if the program leaves the tensor alone; on a GPU without GPU-aware MPI even if it does not. -/
theorem send_value {m : DevMem I α} {b : Nat} (hb : b < m.next) (aware : Bool) (r : DevReq I α) (hr : r.data = none) {l : List (DevStep I α)} (hq : Quiet l [(startSend aware m b).2]) :
    (devSteps ((startSend aware m b).1, r) l).1.val (startSend aware m b).2 = m.val b := by
  have step : ∀ (l : List (DevStep I α)) (t : Nat) (s : DevMem I α × DevReq I α), (t < s.1.next ∧ s.2.data = none ∧ s.1.val t = m.val b) → Quiet l [t] → (devSteps s l).1.val t = m.val b := by
    intro l t
    induction l with
    | nil => exact fun s h _ => h.2.2
    | cons x l ih =>
      intro s h hq
      refine ih (devStep s x) ?_ fun k c hm => hq k c (List.mem_cons_of_mem _ hm)
      cases x with
      | write j c =>
        have hj := hq j c (List.mem_cons_self ..)
        simp only [List.mem_cons, List.not_mem_nil, or_false] at hj
        refine ⟨h.1, h.2.1, ?_⟩
        simp only [devStep, DevMem.write]
        rw [if_neg (Ne.symm hj)]
        exact h.2.2
      | alloc c =>
        refine ⟨Nat.lt_succ_of_lt h.1, h.2.1, ?_⟩
        simp only [devStep, DevMem.alloc]
        rw [if_neg (Nat.ne_of_lt h.1)]
        exact h.2.2
      | deliver =>
        simp only [devStep, DevReq.deliver, h.2.1]
        exact ⟨h.1, trivial, h.2.2⟩
  refine step l _ _ ?_ hq
  unfold startSend
  split
  · exact ⟨Nat.lt_succ_self _, hr, by simp [DevMem.alloc]⟩
  · exact ⟨hb, hr, rfl⟩

/-- On a GPU without GPU-aware MPI MPI reads a tensor the program does not know. -/
theorem send_copy {m : DevMem I α} {b : Nat} (hg : m.gpu b = true) : (startSend false m b).2 = m.next := by
  unfold startSend staged
  simp [hg]

/-- A process with a tensor 0 on the GPU and a tensor 1 on the host, as 2×2 matrices. -/
def reqMem : DevMem (Fin 2 × Fin 2) Nat := ⟨fun k i => 10 * k + 2 * i.1 + i.2, fun k => k == 0, 2⟩

/-- The data delivered by MPI. -/
def reqData : Fin 2 × Fin 2 → Nat := fun i => 100 + 2 * i.1 + i.2

/-- The hypotheses are met: transposed, delivered after a write to the other tensor and an allocation. -/
example : Swap (some fun i : Fin 2 × Fin 2 => (i.2, i.1)) ∧ (0 : Nat) < reqMem.next ∧ Quiet [DevStep.write 1 reqData, .alloc reqData, .deliver] [0, (startRecv false reqMem 0 (some fun i => (i.2, i.1)) reqData).2.target] ∧ reqMem.gpu 0 = true := by
  refine ⟨fun σ h i => by cases h; rfl, by decide, ?_, rfl⟩
  intro k c h
  simp only [List.mem_cons, DevStep.write.injEq, List.not_mem_nil, or_false, reduceCtorEq] at h
  rw [h.1]
  decide

example : let s := devSteps (startRecv false reqMem 0 (some fun i => (i.2, i.1)) reqData) [.write 1 reqData, .alloc reqData, .deliver]
    (s.2.waitUpper false s.1).1.val 0 (0, 1) = 102 ∧ (s.2.waitLower s.1).1.val 0 (0, 1) = 1 := by decide

end Heat
