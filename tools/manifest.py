#!/usr/bin/env python3
"""Writes MANIFEST.json and checks that every theorem named in it exists in the Lean sources."""
import json, os, re
here=os.path.dirname(os.path.abspath(__file__)); root=os.path.join(here,"..")
C=[]
def c(prop,status,theorems,note=""): C.append(dict(property=prop,status=status,theorems=theorems,note=note))
exec(open(os.path.join(here,"claims.py")).read())
names=set()
for dp,_,fs in os.walk(os.path.join(root,"lean","Verif")):
    for f in fs:
        if f.endswith(".lean"):
            ns=[]
            for line in open(os.path.join(dp,f)):
                m=re.match(r"namespace (\S+)",line)
                if m: ns.append(m.group(1))
                m=re.match(r"end (\S+)",line)
                if m and ns and ns[-1]==m.group(1): ns.pop()
                m=re.match(r"(?:@\[[^\]]*\] *)?(?:protected )?theorem (\S+)",line)
                if m: names.add(".".join(ns+[m.group(1)]))
bad=[t for x in C for t in x["theorems"] if t not in names]
assert not bad, bad
props=[json.loads(l)["id"] for l in open(os.path.join(root,"properties.jsonl"))]
have={x["property"] for x in C}
print("missing:",[p for p in props if p not in have])
assert have<=set(props), have-set(props)
C.sort(key=lambda x:x["property"])
json.dump({"claims":C},open(os.path.join(root,"MANIFEST.json"),"w"),indent=1)
# axiom audit module
ts=sorted({t for x in C for t in x["theorems"]})
mods=sorted(l.split()[1] for l in open(os.path.join(root,"lean","Verif.lean")) if l.startswith("import") and "Audit" not in l)
with open(os.path.join(root,"lean","Verif","Audit.lean"),"w") as f:
    f.write("".join(f"import {m}\n" for m in mods))
    f.write("""import Lean.Elab.Command
import Lean.Util.CollectAxioms

/-!
Checks, while building, that no theorem named in MANIFEST.json depends on an
axiom other than `propext`, `Classical.choice` and `Quot.sound`.
Generated by tools/manifest.py.
-/

open Lean Elab Command in
elab "#audit " ids:ident* : command => do
  for i in ids do
    let n ← liftCoreM <| Lean.Elab.realizeGlobalConstNoOverloadWithInfo i
    let ax ← collectAxioms n
    for a in ax do
      unless a == ``propext || a == ``Classical.choice || a == ``Quot.sound do
        throwErrorAt i "{n} depends on {a}"

""")
    f.write("#audit\n"+"\n".join("  "+t for t in ts)+"\n")
