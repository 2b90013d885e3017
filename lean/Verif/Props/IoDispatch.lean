import Verif.Model.IoDispatch
/-!
# C199 `load` and `save` choose the format by the file extension
-/
namespace Heat

/-- `p` is the path of a file whose name has the extension `ext`: the directory is empty or ends with a slash, the part of the name before the dot does not consist of dots only. -/
def FileWithExt (p ext : List Char) : Prop :=
  ∃ dir stem, p = dir ++ stem ++ '.' :: ext ∧ (dir = [] ∨ ∃ d, dir = d ++ ['/']) ∧ '/' ∉ stem ∧ '/' ∉ ext ∧ '.' ∉ ext ∧ ∃ c ∈ stem, c ≠ '.'

/-- The format for an extension (in lower case, without the dot), as listed in the sources. -/
def formatOf (e : List Char) : Option IoFormat :=
  if e = "csv".toList then some .csv
  else if e = "h5".toList ∨ e = "hdf5".toList then some .hdf5
  else if e = "nc".toList ∨ e = "nc4".toList ∨ e = "netcdf".toList then some .netcdf
  else if e = "zarr".toList then some .zarr
  else none

theorem takeWhile_append_stop {β : Type} (f : β → Bool) (a b : List β) (ha : ∀ x ∈ a, f x = true) (hb : ∀ x ∈ b.head?, f x = false) : (a ++ b).takeWhile f = a := by
  induction a with
  | nil =>
    cases b with
    | nil => rfl
    | cons y b => rw [List.nil_append, List.takeWhile_cons, hb y (by simp)]; rfl
  | cons x a ih =>
    rw [List.cons_append, List.takeWhile_cons, ha x List.mem_cons_self]
    simp only [if_true]
    rw [ih fun y hy => ha y (List.mem_cons_of_mem _ hy)]

theorem dropWhile_dots (stem t : List Char) (h : ∃ c ∈ stem, c ≠ '.') : ∃ s', (stem ++ t).dropWhile (· = '.') = s' ++ t ∧ (∀ c ∈ s', c ∈ stem) := by
  induction stem with
  | nil => obtain ⟨c, hc, _⟩ := h; cases hc
  | cons x stem ih =>
    by_cases hx : x = '.'
    · subst hx
      obtain ⟨c, hc, hne⟩ := h
      rcases List.mem_cons.1 hc with rfl | hc
      · exact absurd rfl hne
      · obtain ⟨s', e, hs⟩ := ih ⟨c, hc, hne⟩
        refine ⟨s', ?_, fun c hc => List.mem_cons_of_mem _ (hs c hc)⟩
        rw [List.cons_append, List.dropWhile_cons]
        simpa using e
    · refine ⟨x :: stem, ?_, fun c hc => hc⟩
      rw [List.cons_append, List.dropWhile_cons]
      simp [hx]

/-- The extension of a file name. -/
theorem splitExt_file (p ext : List Char) (h : FileWithExt p ext) : splitExt p = '.' :: ext := by
  obtain ⟨dir, stem, rfl, hdir, hs, he, hd, hc⟩ := h
  have name : ((dir ++ stem ++ '.' :: ext).reverse.takeWhile (· ≠ '/')).reverse = stem ++ '.' :: ext := by
    rw [List.append_assoc, List.reverse_append, takeWhile_append_stop]
    · rw [List.reverse_reverse]
    · intro x hx
      rw [List.mem_reverse, List.mem_append, List.mem_cons] at hx
      simp only [ne_eq, decide_eq_true_eq]
      rcases hx with hx | rfl | hx
      · exact fun e => hs (e ▸ hx)
      · decide
      · exact fun e => he (e ▸ hx)
    · intro x hx
      rcases hdir with rfl | ⟨d, rfl⟩
      · simp at hx
      · simp at hx
        subst hx
        simp
  obtain ⟨s', e, hs'⟩ := dropWhile_dots stem ('.' :: ext) hc
  unfold splitExt
  simp only [name, e]
  rw [if_pos (by simp)]
  congr 1
  rw [List.reverse_append, List.reverse_cons, List.append_assoc, takeWhile_append_stop]
  · rw [List.reverse_reverse]
  · intro x hx
    rw [List.mem_reverse] at hx
    simp only [ne_eq, decide_eq_true_eq]
    exact fun e => hd (e ▸ hx)
  · intro x hx
    simp at hx
    subst hx
    simp

/-- The extension of any path is empty or begins with a dot. -/
theorem splitExt_dot (p : List Char) : splitExt p = [] ∨ ∃ t, splitExt p = '.' :: t := by
  unfold splitExt
  simp only
  split
  · exact Or.inr ⟨_, rfl⟩
  · exact Or.inl rfl

theorem strip_dot (ws : Char → Bool) (hw : ws '.' = false) (t : List Char) : ∃ t', stripBlank ws ('.' :: t) = '.' :: t' := by
  unfold stripBlank
  rw [List.dropWhile_cons, hw]
  simp only [Bool.false_eq_true, if_false]
  have key : ∀ a : List Char, ∃ b, (a ++ ['.']).dropWhile ws = b ++ ['.'] := by
    intro a
    induction a with
    | nil => exact ⟨[], by rw [List.nil_append, List.dropWhile_cons, hw]; rfl⟩
    | cons x a ih =>
      rw [List.cons_append, List.dropWhile_cons]
      split
      · exact ih
      · exact ⟨x :: a, rfl⟩
  rw [List.reverse_cons]
  obtain ⟨b, e⟩ := key t.reverse
  exact ⟨b.reverse, by rw [e]; simp⟩

theorem strip_none (ws : Char → Bool) (l : List Char) (h : ∀ c ∈ l, ws c = false) : stripBlank ws l = l := by
  have key : ∀ a : List Char, (∀ c ∈ a, ws c = false) → a.dropWhile ws = a := by
    intro a ha
    cases a with
    | nil => rfl
    | cons x a => rw [List.dropWhile_cons, ha x List.mem_cons_self]; rfl
  unfold stripBlank
  rw [key l h, key l.reverse fun c hc => h c (List.mem_reverse.1 hc), List.reverse_reverse]

/-- The extension is empty or begins with a dot, so it is never `netcdf`. -/
theorem ioExtension_dot (ws : Char → Bool) (hw : ws '.' = false) (p : List Char) : ioExtension ws p = [] ∨ ∃ t, ioExtension ws p = '.' :: t := by
  unfold ioExtension
  rcases splitExt_dot p with h | ⟨t, h⟩
  · left; rw [h]; rfl
  · obtain ⟨t', e⟩ := strip_dot ws hw t
    right; rw [h, e]; exact ⟨t'.map Char.toLower, rfl⟩

/-- **C199:** `load` and `save` choose the same format, or fail in the same way, for every path. -/
theorem load_save_agree (ws : Char → Bool) (sup : IoFormat → Bool) (p : List Char) : loadChoice ws sup p = saveChoice ws sup p := by
  unfold loadChoice saveChoice
  simp only
  generalize ioExtension ws p = e
  by_cases h : isExt e csvExts = true
  · have he : e = ".csv".toList := by
      simp [isExt, csvExts] at h
      exact h.symm
    subst he
    rfl
  · simp only [h]
    rfl

/-- **C199, partial:** the format is the one listed for the extension of the file name, upper or lower case, and a `ValueError` otherwise; a `RuntimeError` exactly if the package is missing.
Missing: the listed extension `netcdf` (`netcdf_ext_violated`). -/
theorem load_format_partial (ws : Char → Bool) (hw : ws '.' = false) (sup : IoFormat → Bool) (p ext : List Char) (h : FileWithExt p ext) (hb : ∀ c ∈ ext, ws c = false)
    (hn : ext.map Char.toLower ≠ "netcdf".toList) :
    loadChoice ws sup p = match formatOf (ext.map Char.toLower) with
      | none => .unsupported
      | some .csv => .use .csv
      | some f => if sup f then .use f else .missing := by
  have e : ioExtension ws p = '.' :: ext.map Char.toLower := by
    unfold ioExtension
    rw [splitExt_file p ext h, strip_none]
    · rfl
    · intro c hc
      rcases List.mem_cons.1 hc with rfl | hc
      · exact hw
      · exact hb c hc
  unfold loadChoice formatOf
  simp only [e]
  generalize ext.map Char.toLower = x at hn
  have m1 : isExt ('.' :: x) csvExts = decide (x = "csv".toList) := by simp [isExt, csvExts, eq_comm]
  have m2 : isExt ('.' :: x) hdf5Exts = decide (x = "h5".toList ∨ x = "hdf5".toList) := by simp [isExt, hdf5Exts, eq_comm]
  have m3 : isExt ('.' :: x) netcdfExts = decide (x = "nc".toList ∨ x = "nc4".toList ∨ x = "netcdf".toList) := by
    simp [isExt, netcdfExts, eq_comm]
    simp at hn
    simp [hn]
  have m4 : isExt ('.' :: x) zarrExts = decide (x = "zarr".toList) := by simp [isExt, zarrExts, eq_comm]
  rw [m1, m2, m3, m4]
  simp only [decide_eq_true_eq]
  by_cases h1 : x = "csv".toList
  · rw [if_pos h1, if_pos h1]
  · rw [if_neg h1, if_neg h1]
    by_cases h2 : x = "h5".toList ∨ x = "hdf5".toList
    · rw [if_pos h2, if_pos h2]
    · rw [if_neg h2, if_neg h2]
      by_cases h3 : x = "nc".toList ∨ x = "nc4".toList ∨ x = "netcdf".toList
      · rw [if_pos h3, if_pos h3]
      · rw [if_neg h3, if_neg h3]
        by_cases h4 : x = "zarr".toList
        · rw [if_pos h4, if_pos h4]
        · rw [if_neg h4, if_neg h4]

/-- **C199 violated:** files with the extension `.netcdf` are refused with a `ValueError` by `load` and `save` although `netcdf` is among the listed extensions (without the dot, which no extension lacks). -/
theorem netcdf_ext_violated (ws : Char → Bool) (hw : ws '.' = false) (sup : IoFormat → Bool) (p ext : List Char) (h : FileWithExt p ext) (hb : ∀ c ∈ ext, ws c = false)
    (hn : ext.map Char.toLower = "netcdf".toList) : formatOf (ext.map Char.toLower) = some .netcdf ∧ loadChoice ws sup p = .unsupported ∧ saveChoice ws sup p = .unsupported := by
  have e : ioExtension ws p = ".netcdf".toList := by
    unfold ioExtension
    rw [splitExt_file p ext h, strip_none]
    · rw [List.map_cons, hn]; rfl
    · intro c hc
      rcases List.mem_cons.1 hc with rfl | hc
      · exact hw
      · exact hb c hc
  have hl : loadChoice ws sup p = .unsupported := by
    unfold loadChoice
    simp only [e]
    rfl
  exact ⟨by rw [hn]; rfl, hl, by rw [← load_save_agree]; exact hl⟩

/-- Hidden files and files without a dot have no extension. -/
theorem no_ext (ws : Char → Bool) (sup : IoFormat → Bool) (dir dots stem : List Char) (hdir : dir = [] ∨ ∃ d, dir = d ++ ['/']) (hd : ∀ c ∈ dots, c = '.') (hs : '/' ∉ stem) (hs' : '.' ∉ stem) :
    loadChoice ws sup (dir ++ dots ++ stem) = .unsupported := by
  have name : ((dir ++ dots ++ stem).reverse.takeWhile (· ≠ '/')).reverse = dots ++ stem := by
    rw [List.append_assoc, List.reverse_append, takeWhile_append_stop]
    · rw [List.reverse_reverse]
    · intro x hx
      rw [List.mem_reverse, List.mem_append] at hx
      simp only [ne_eq, decide_eq_true_eq]
      rcases hx with hx | hx
      · rw [hd x hx]; decide
      · exact fun e => hs (e ▸ hx)
    · intro x hx
      rcases hdir with rfl | ⟨d, rfl⟩
      · simp at hx
      · simp at hx
        subst hx
        simp
  have e : splitExt (dir ++ dots ++ stem) = [] := by
    unfold splitExt
    simp only [name]
    rw [if_neg]
    intro hm
    have : ∀ a b : List Char, (∀ c ∈ a, c = '.') → '.' ∈ (a ++ b).dropWhile (· = '.') → '.' ∈ b := by
      intro a
      induction a with
      | nil => intro b _ h; exact (List.dropWhile_sublist _).subset h
      | cons x a ih =>
        intro b ha h
        have hx := ha x List.mem_cons_self
        subst hx
        rw [List.cons_append, List.dropWhile_cons] at h
        exact ih b (fun c hc => ha c (List.mem_cons_of_mem _ hc)) (by simpa using h)
    exact hs' (this dots stem hd hm)
  unfold loadChoice ioExtension
  rw [e]
  rfl

example : FileWithExt "/data/run.1/x.NC4".toList "NC4".toList :=
  ⟨"/data/run.1/".toList, "x".toList, by decide, Or.inr ⟨"/data/run.1".toList, by decide⟩, by decide, by decide, by decide, 'x', by decide, by decide⟩

example : loadChoice (· = ' ') (fun _ => true) "/data/run.1/x.NC4".toList = .use .netcdf := by decide

example : loadChoice (· = ' ') (fun _ => true) "x.netcdf".toList = .unsupported := by decide

end Heat
