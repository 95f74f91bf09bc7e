"""Regenerates MANIFEST.json and lean/Verif/Audit.lean from the theorem names in lean/Verif/Props.

A theorem named Cnn_... belongs to property Cnn.  tools/notes.json holds per-property status overrides and notes.
A property is partial if one of its theorems is named *_partial.
"""
import collections
import glob
import json
import os
import re

ROOT = os.path.dirname(os.path.dirname(os.path.abspath(__file__)))
notes = json.load(open(os.path.join(ROOT, "tools", "notes.json")))
by_prop = collections.defaultdict(list)
mods = []
for path in sorted(glob.glob(os.path.join(ROOT, "lean/Verif/Props/*.lean"))):
    mods.append("Verif.Props." + os.path.basename(path)[:-5])
    for m in re.finditer(r"^theorem (C\d\d\w*)", open(path).read(), re.M):
        by_prop[re.match(r"C\d+", m.group(1)).group(0)].append("Dorado." + m.group(1))
claims = []
for pid in sorted(by_prop, key=lambda c: int(c[1:])):
    names = by_prop[pid]
    n = notes.get(pid, {})
    status = n.get("status") or ("partial" if any(x.endswith("_partial") for x in names) else "proved")
    claims.append({"property": pid, "status": status, "theorems": names, "note": n.get("note", "")})
with open(os.path.join(ROOT, "MANIFEST.json"), "w") as f:
    json.dump({"claims": claims}, f, indent=1, ensure_ascii=False)
    f.write("\n")
with open(os.path.join(ROOT, "lean/Verif/Audit.lean"), "w") as f:
    f.write("".join("import %s\n" % m for m in mods))
    f.write("\n/-! Generated by tools/manifest.py: the axioms of every property theorem. -/\n\n")
    for pid in sorted(by_prop, key=lambda c: int(c[1:])):
        f.write("".join("#print axioms %s\n" % x for x in by_prop[pid]))
ids = [json.loads(l)["id"] for l in open(os.path.join(ROOT, "properties.jsonl"))]
print("missing:", [i for i in ids if i not in by_prop])
