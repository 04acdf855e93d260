#!/usr/bin/env python3
"""Source of /verif/MANIFEST.json (run: python3 tools/manifest.py).

Every claim is listed here with its theorems; names are checked against the
Lean sources."""
import json, os, re, sys
ROOT = os.path.join(os.path.dirname(os.path.abspath(__file__)), "..")
C = []
def c(prop, status, theorems, note=""):
    C.append(dict(property=prop, status=status,
                  theorems=["Rustextile." + t for t in theorems], note=note))

exec(open(os.path.join(ROOT, "tools", "claims.py")).read())

src = ""
for d, _, fs in os.walk(os.path.join(ROOT, "lean", "Verif")):
    for f in fs:
        if f.endswith(".lean"):
            src += open(os.path.join(d, f)).read() + "\n"
names = set(re.findall(r"^(?:protected |private )?theorem ([\w.'?!]+)", src, re.M))
bad = [t for x in C for t in x["theorems"] if t[len("Rustextile."):] not in names]
ids = [json.loads(l)["id"] for l in open(os.path.join(ROOT, "properties.jsonl"))]
have = [x["property"] for x in C]
print("missing theorems:", bad)
print("claims without property:", [h for h in have if h not in ids])
print("properties without claim:", [i for i in ids if i not in have])
if bad: sys.exit(1)
C.sort(key=lambda x: x["property"])
json.dump({"claims": C}, open(os.path.join(ROOT, "MANIFEST.json"), "w"), indent=1, ensure_ascii=False)
