#!/usr/bin/env python3
"""Writes MANIFEST.json from the theorem names C<nn>_* found in lean/Verif/**/Props*.lean plus the notes below."""
import re,glob,json,os
root=os.path.dirname(os.path.dirname(os.path.abspath(__file__)))
NOTES=json.load(open(os.path.join(root,'tools','notes.json')))
thms={}
for f in sorted(glob.glob(os.path.join(root,'lean/Verif/**/*.lean'),recursive=True)):
    ns=''
    for l in open(f):
        m=re.match(r'namespace (\S+)',l)
        if m: ns=m.group(1)
        m=re.match(r'theorem (C(\d+)_\S+)',l)
        if m: thms.setdefault('C'+m.group(2),[]).append(ns+'.'+m.group(1))
ids=[json.loads(l)['id'] for l in open(os.path.join(root,'properties.jsonl'))]
claims=[]
for i in ids:
    t=thms.get(i,[])
    n=NOTES.get(i,'')
    viol=any('_violated' in x or '_partial' in x for x in t)
    if not t:
        st='partial'; n=n or 'not proved yet'
    else: st='partial' if viol else 'proved'
    claims.append({'property':i,'status':st,'theorems':t,'note':n})
json.dump({'claims':claims},open(os.path.join(root,'MANIFEST.json'),'w'),indent=1,ensure_ascii=False)
for c in claims: print(c['property'],c['status'],len(c['theorems']))
