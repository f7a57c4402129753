#!/usr/bin/env python3
"""Write MANIFEST.json: theorem names come from lean/Verif/Props, status and note from NOTES below."""
import glob, json, os, re
root = os.path.dirname(os.path.dirname(os.path.abspath(__file__)))
P, A = "proved", "partial"
NOTES = json.load(open(os.path.join(root, "tools", "notes.json")))
names = {}
for f in sorted(glob.glob(root + "/lean/Verif/Props/*.lean")):
    ns = []
    for line in open(f):
        m = re.match(r"namespace (\S+)", line)
        if m: ns.append(m.group(1))
        m = re.match(r"end (\S+)", line)
        if m and ns and ns[-1] == m.group(1): ns.pop()
        m = re.match(r"theorem ((C\d\d+)\w*)", line)
        if m: names.setdefault(m.group(2), []).append(".".join(ns + [m.group(1)]))
ids = [json.loads(l)["id"] for l in open(root + "/properties.jsonl")]
claims = []
for i in ids:
    if i not in names:
        if i in NOTES: print("no theorems for", i)
        continue
    if i not in NOTES: print("no note for", i); continue
    status, note = NOTES[i]
    claims.append({"property": i, "status": status, "theorems": names[i], "note": note})
for i in names:
    if i not in ids: print("unknown property", i)
json.dump({"claims": claims}, open(root + "/MANIFEST.json", "w"), indent=1, ensure_ascii=False)
print(len(claims), "claims")
