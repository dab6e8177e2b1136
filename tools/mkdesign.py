#!/usr/bin/env python3
"""DESIGN.md = tools/design_head.md + table of properties + table of axioms (tools/axioms.txt) + tools/design_tail.md"""
import json,re
H='/verif/'
ps=[json.loads(l) for l in open(H+'properties.jsonl')]
m={c['property']:c for c in json.load(open(H+'MANIFEST.json'))['claims']}
ax={}
for l in open(H+'tools/axioms.txt'):
    w=l.rstrip('\n').split(' '); ax[w[0]]=(w[1].replace('Verif.',''),[a for a in w[2:] if a])
exec(open(H+'tools/methods.py').read())
o=open(H+'tools/design_head.md').read()
o+='\n## 4. Properties: what is modelled and how it is proved\n\nStatus P: proved as stated. p: partial; the full statement is false of the code (a counterexample is a theorem, listed in MANIFEST.json) and the strongest true part is proved under a `_partial` name.\n\n| Property | Status | Model | Proof |\n|---|---|---|---|\n'
for p in ps:
    i=p['id']; mod,how=METHOD[i]
    o+=f"| {i} {p['title']} | {'P' if m[i]['status']=='proved' else 'p'} | {mod} | {how} |\n"
o+='\n'+open(H+'tools/design_tail.md').read()
o+='\n## 8. Where the code does not keep a property\n\n'
for q in ps:
    if m[q['id']]['status']=='partial': o+=f"* **{q['id']} {q['title']}.** {m[q['id']]['note']}\n"
o+='\n## 9. Axioms each claimed theorem depends on\n\n`pe` = propext, `Cc` = Classical.choice, `Qs` = Quot.sound. No other axiom occurs.\n\n'
ab={'propext':'pe','Classical.choice':'Cc','Quot.sound':'Qs'}
g={}
for t,(mod,a) in sorted(ax.items()): g.setdefault(' '.join(ab[x] for x in sorted(a,key=list(ab).index)) or 'none',{}).setdefault(mod,[]).append(t.replace('Verif.',''))
for k in sorted(g,key=len):
    o+=f'* **{k}**\n'
    for mod,ts in sorted(g[k].items()): o+=f'  * {mod}: {", ".join("`"+t+"`" for t in ts)}\n'
open(H+'DESIGN.md','w').write(o)
