#!/usr/bin/env python3
"""Regenerate MANIFEST.json and lean/Verif/Audit.lean from scripts/claims.json.

claims.json maps a property id to {"status", "theorems", "note"}; a theorem name listed without the
`AceTN.` prefix gets it.  Audit.lean prints the axioms of every listed theorem.
"""
import json, os, re, sys
root = os.path.dirname(os.path.dirname(os.path.abspath(__file__)))
claims = json.load(open(os.path.join(root, "scripts", "claims.json")))
ids = [json.loads(l)["id"] for l in open(os.path.join(root, "properties.jsonl")) if l.strip()]
out, names = [], []
for i in ids:
    if i not in claims:
        continue
    c = claims[i]
    th = [t if t.startswith("AceTN.") else "AceTN." + t for t in c["theorems"]]
    out.append({"property": i, "status": c["status"], "theorems": th, "note": c["note"]})
    names += [t for t in th if t not in names]
json.dump({"claims": out}, open(os.path.join(root, "MANIFEST.json"), "w"), indent=1, ensure_ascii=False)
src = ""
imports = set()
defs = {}
for d, _, fs in os.walk(os.path.join(root, "lean", "Verif", "Props")):
    for f in sorted(fs):
        if f.endswith(".lean"):
            mod = "Verif.Props." + f[:-5]
            imports.add(mod)
            text = open(os.path.join(d, f)).read()
            stack = []
            for m in re.finditer(r"^(namespace|section|noncomputable section|end|theorem)\b[ \t]*(\S*)", text, re.M):
                kind, name = m.groups()
                if kind == "end":
                    stack.pop()
                elif kind == "theorem":
                    defs[".".join([x for x in stack if x] + [name])] = mod
                else:
                    stack.append(name if kind == "namespace" else "")
missing = [n for n in names if n not in defs]
if missing:
    print("not found in Props:", missing); sys.exit(1)
unlisted = [n for n in defs if re.match(r"AceTN\.(\w+\.)?C\d\d", n) and n not in names]
if unlisted:
    print("unlisted property theorems:", unlisted)
with open(os.path.join(root, "lean", "Verif", "Audit.lean"), "w") as f:
    f.write("".join(f"import {m}\n" for m in sorted(imports)))
    f.write("\n/-! Axioms of every theorem named in MANIFEST.json (generated by scripts/manifest.py). -/\n\n")
    f.write("".join(f"#print axioms {n}\n" for n in names))
