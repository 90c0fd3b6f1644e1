#!/usr/bin/env python3
"""Writes DESIGN.md: the fixed text of tools/design_head.md, the per-property table from MANIFEST.json and properties.jsonl,
and the axioms of every manifest theorem (from `lake env lean` on generated #print axioms lines; run in lean/ after a build)."""
import json,re,subprocess,os,tempfile
root=os.path.dirname(os.path.dirname(os.path.abspath(__file__)))
ps={}
for l in open(root+'/properties.jsonl'):
    if l.strip():
        p=json.loads(l); ps[p['id']]=p
claims=json.load(open(root+'/MANIFEST.json'))['claims']
src='import Verif\n'+''.join(f'#print axioms {t}\n' for c in claims for t in c['theorems'])
f=tempfile.NamedTemporaryFile('w',suffix='.lean',delete=False); f.write(src); f.close()
out=subprocess.run(['lake','env','lean',f.name],cwd=root+'/lean',capture_output=True,text=True).stdout
out=re.sub(r'\n\s+',' ',out)
ax={}
for m in re.finditer(r"'([^']+)' (does not depend on any axioms|depends on axioms: \[([^\]]*)\])",out):
    ax[m.group(1)]=m.group(3) or ''
plan=json.load(open(root+'/tools/plan.json'))
o=open(root+'/tools/design_head.md').read()
o+='\n## Property by property\n\nWhat is modelled and how it is proved. "False of the code" means that a theorem of the list proves a counterexample;\nthe `_partial` theorem is then the largest part we proved. The full statement stays in `properties.jsonl`.\n\n'
for c in claims:
    p=c['property']
    o+=f"* **{p}** ({c['status']}) {ps[p]['title']}. {plan.get(p,'')} {c['note']}\n  Theorems: "+', '.join('`'+t.replace('Vectory.','')+'`' for t in c['theorems'])+'\n'
o+='\n## Axioms of each theorem\n\nOnly Lean\'s three standard axioms occur (`propext`, `Quot.sound`, `Classical.choice`). P = propext, Q = Quot.sound, C = Classical.choice.\n\n'
short={'propext':'P','Classical.choice':'C','Quot.sound':'Q'}
g={}
for c in claims:
    for t in c['theorems']:
        k=''.join(sorted(short.get(a.strip(),'?'+a) for a in ax[t].split(',') if a.strip())) or 'none'
        g.setdefault(k,[]).append(t.replace('Vectory.',''))
for k in sorted(g): o+=f'* **{k}** ({len(g[k])}): '+', '.join(g[k])+'\n'
open(root+'/DESIGN.md','w').write(o)
print(len(ax),'theorems', {k:len(v) for k,v in g.items()})
