#!/usr/bin/env python3
"""Collects the property theorems (named Cnn_...) of lean/Verif/Props into MANIFEST.json.
Status: 'partial' when the property has a theorem ending in _partial or a noted gap; notes are in tools/notes.json."""
import re,glob,json,os
root=os.path.dirname(os.path.dirname(os.path.abspath(__file__)))
props=[json.loads(l)['id'] for l in open(root+'/properties.jsonl') if l.strip()]
notes=json.load(open(root+'/tools/notes.json'))
th={}
for f in sorted(glob.glob(root+'/lean/Verif/Props/*.lean')):
    ns=[]
    for line in open(f):
        m=re.match(r'namespace (\S+)',line)
        if m: ns.append(m.group(1))
        m=re.match(r'end (\S+)',line)
        if m and ns and ns[-1]==m.group(1): ns.pop()
        m=re.match(r'(?:set_option \S+ \S+ in )?theorem (C\d\d\w*)',line)
        if m: th.setdefault(m.group(1)[:3],[]).append('.'.join(ns+[m.group(1)]))
out=[]
for p in props:
    if p not in th: continue
    ts=th[p]
    n=notes.get(p,{})
    st=n.get('status') or ('partial' if any(t.endswith('_partial') for t in ts) else 'proved')
    out.append({'property':p,'status':st,'theorems':ts,'note':n.get('note','')})
json.dump({'claims':out},open(root+'/MANIFEST.json','w'),indent=1)
print(len(out),'of',len(props),'claims; missing:',[p for p in props if p not in th])
