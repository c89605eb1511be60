#!/usr/bin/env python3
"""Write MANIFEST.json: theorem names are collected from lean/Verif/Props by their C## prefix,
status and note come from the table below."""
import json, re, glob, os
root = os.path.join(os.path.dirname(os.path.abspath(__file__)), "..")
thms = {}
for f in sorted(glob.glob(os.path.join(root, "lean/Verif/Props/**/*.lean"), recursive=True)):
    ns = []
    for line in open(f):
        m = re.match(r"namespace\s+(\S+)", line)
        if m: ns.append(m.group(1))
        m = re.match(r"end\s+(\S+)", line)
        if m and ns and ns[-1] == m.group(1): ns.pop()
        m = re.match(r"(?:private\s+|protected\s+)?theorem\s+((C\d\d+)\S*)", line)
        if m: thms.setdefault(m.group(2), []).append(".".join(ns + [m.group(1)]))
NOTES = json.load(open(os.path.join(root, "tools/notes.json")))
ids = [json.loads(l)["id"] for l in open(os.path.join(root, "properties.jsonl")) if l.strip()]
claims = []
for i in ids:
    st, note = NOTES.get(i, [None, ""])
    if st is None:
        st = "proved" if thms.get(i) else "partial"
    if not thms.get(i):
        st, note = "partial", "No theorem yet. " + note
    claims.append({"property": i, "status": st, "theorems": thms.get(i, []), "note": note})
json.dump({"claims": claims}, open(os.path.join(root, "MANIFEST.json"), "w"), indent=1)
open(os.path.join(root, "MANIFEST.json"), "a").write("\n")
print(sum(1 for c in claims if c["theorems"]), "of", len(claims), "properties have theorems;",
      sum(len(c["theorems"]) for c in claims), "theorems")
