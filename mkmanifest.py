#!/usr/bin/env python3
"""Writes MANIFEST.json from the table below (checks that every theorem name exists)."""
import json, re, glob, os
T = {}
def c(pid, status, thms, note=""):
    T[pid] = {"property": pid, "status": status, "theorems": ["Acltk."+t for t in thms.split()], "note": note}
exec(open(os.path.join(os.path.dirname(__file__), "claims.txt")).read())
names=set()
for f in glob.glob("/verif/lean/Verif/**/*.lean", recursive=True):
    s=open(f).read()
    names |= set(re.findall(r"^theorem\s+([\w'.]+)", s, re.M))
for k,v in T.items():
    for t in v["theorems"]:
        assert t.split(".")[-1] in names or t[6:] in names, (k,t)
used={t for v in T.values() for t in v["theorems"]}
for n in sorted(names):
    if re.match(r"C\d\d", n) and n not in {u.split(".")[-1] for u in used}: print("unlisted", n)
ids=[json.loads(l)["id"] for l in open("/verif/properties.jsonl")]
print("missing claims:", [i for i in ids if i not in T])
json.dump({"claims":[T[k] for k in sorted(T)]}, open("/verif/MANIFEST.json","w"), indent=1)
