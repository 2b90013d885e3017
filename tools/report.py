#!/usr/bin/env python3
"""Regenerates AXIOMS.md and the generated part of DESIGN.md (section 6) from MANIFEST.json, properties.jsonl and Lean's #print axioms.
Run after `lake build` in /verif/lean."""
import json,subprocess,re,os,collections
V='/verif'
man=json.load(open(V+'/MANIFEST.json'))['claims']
props={}
for l in open(V+'/properties.jsonl'):
    if l.strip():
        d=json.loads(l); props[d['id']]=d
ths=[]
for c in man:
    for t in c['theorems']:
        if t not in ths: ths.append(t)
src="import Verif\n"+"".join(f"#print axioms {t}\n" for t in ths)
open('/tmp/ax.lean','w').write(src)
out=subprocess.run(['lake','env','lean','/tmp/ax.lean'],cwd=V+'/lean',capture_output=True,text=True).stdout
out=re.sub(r'\n\s+',' ',out)
ax={}
for m in re.finditer(r"'([^']+)' (does not depend on any axioms|depends on axioms: \[([^\]]*)\])",out):
    ax[m.group(1)]=m.group(3) or 'none'
missing=[t for t in ths if t not in ax]
assert not missing,missing
allowed={'propext','Classical.choice','Quot.sound','none'}
for t,a in ax.items():
    assert set(x.strip() for x in a.split(','))<=allowed,(t,a)
where={}
for root,_,fs in os.walk(V+'/lean/Verif'):
    for f in fs:
        p=os.path.join(root,f)
        for m in re.finditer(r'^(?:protected |private )?theorem ([\w.\']+)',open(p).read(),re.M):
            where.setdefault('Heat.'+m.group(1),os.path.relpath(p,V+'/lean/Verif'))
by=collections.defaultdict(list)
for t in ths: by[ax[t]].append(t)
with open(V+'/AXIOMS.md','w') as f:
    f.write("# Axioms of every theorem named in MANIFEST.json\n\nGenerated by `tools/report.py` from Lean's `#print axioms`.\n\n| theorem | file | axioms |\n|---|---|---|\n")
    for t in ths: f.write(f"| `{t}` | {where.get(t,'?')} | {ax[t]} |\n")
s=open(V+'/DESIGN.md').read()
mark="<!-- generated: status -->"
i=s.index(mark)
j=s.index("<!-- end generated -->")
tab=[mark,"","| id | title | status | proved in | what is proved, what is missing |","|---|---|---|---|---|"]
for c in man:
    files=[]
    for t in c['theorems']:
        w=where.get(t,'?')
        if w not in files: files.append(w)
    tab.append(f"| {c['property']} | {props[c['property']]['title']} | {c['status']} | {', '.join(files)} | {c['note'].replace('|','/')} |")
cnt=collections.Counter(ax[t] for t in ths)
tab+=["",f"{len(ths)} theorems are named in MANIFEST.json; axioms: "+"; ".join(f"{v} depend on [{k}]" for k,v in sorted(cnt.items()))+". The list per theorem is AXIOMS.md.",""]
open(V+'/DESIGN.md','w').write(s[:i]+"\n".join(tab)+s[j:])
print(cnt)
