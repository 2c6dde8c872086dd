#!/usr/bin/env python3
"""Generates DESIGN.md from tools/design_head.md, properties.jsonl, MANIFEST.json and tools/plans.json."""
import json, re
P=[json.loads(l) for l in open('/verif/properties.jsonl')]
M={c['property']:c for c in json.load(open('/verif/MANIFEST.json'))['claims']}
plans=json.load(open('/verif/tools/plans.json'))
head=open("/verif/tools/design_head.md").read()
import os
for k in ["EXTRA_MODULES","EXTRA_FINDINGS"]:
    f="/verif/tools/"+k.lower()+".md"
    head=head.replace("@@"+k+"@@\n", open(f).read() if os.path.exists(f) else "")
out=head
out+="\n## Per property: what is modelled and how it is proved\n\n"
for p in P:
    c=M.get(p['id'])
    plan=plans.get(p['id'],{})
    out+=f"### {p['id']} {p['title']} ({c['status'] if c else 'planned'})\n\n"
    out+=f"* Model: {plan.get('model','')}\n* Proof: {plan.get('proof','')}\n"
    if c:
        out+="* Theorems: "+", ".join(f"`{t}`" for t in c['theorems'])+"\n"
        if c['note']: out+=f"* Note: {c['note']}\n"
    out+="\n"
open('/verif/DESIGN.md','w').write(out)
