#!/usr/bin/env python3
"""Rewrites the list of disagreements in DESIGN.md from properties.jsonl and notes.json."""
import json, os, re
here = os.path.dirname(os.path.dirname(os.path.abspath(__file__)))
notes = json.load(open(os.path.join(here, "tools/notes.json")))
md = [""]
for l in open(os.path.join(here, "properties.jsonl")):
    p = json.loads(l)
    st, note = notes[p["id"]]
    if st != "proved":
        md.append("* **%s, %s.** %s" % (p["id"], p["title"], note))
md.append("")
f = os.path.join(here, "DESIGN.md")
s = open(f).read()
s = re.sub(r"(<!-- disagreements -->).*?(<!-- /disagreements -->)", lambda m: m.group(1) + "\n" + "\n".join(md) + "\n" + m.group(2), s, flags=re.S)
open(f, "w").write(s)
