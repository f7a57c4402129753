#!/usr/bin/env python3
"""Rewrites the table of axioms in DESIGN.md (needs a finished `lake build`)."""
import os, re, subprocess, tempfile
here = os.path.dirname(os.path.dirname(os.path.abspath(__file__)))
SRC = '''import Verif
import Lean
open Lean
def listAxioms : CoreM Unit := do
  for (n, ci) in (← getEnv).constants.toList do
    if let .thmInfo _ := ci then
      let s := (n.components.getLast?.getD n).toString
      if n.getRoot == `Fon && s.startsWith "C" && (s.toList.getD 1 'x').isDigit && (s.toList.getD 2 'x').isDigit then
        let ax ← collectAxioms n
        IO.println s!"{s}|{" ".intercalate (ax.toList.map toString |>.mergeSort (· ≤ ·))}"
run_cmd Elab.Command.liftCoreM listAxioms
'''
with tempfile.NamedTemporaryFile("w", suffix=".lean", delete=False) as t:
    t.write(SRC)
out = subprocess.run(["lake", "env", "lean", t.name], cwd=os.path.join(here, "lean"), capture_output=True, text=True, check=True).stdout
os.unlink(t.name)
groups = {}
for line in out.splitlines():
    n, a = line.split("|")
    groups.setdefault(a, []).append(n)
assert all(x in ("propext", "Classical.choice", "Quot.sound") for a in groups for x in a.split())
md = ["", "| axioms | theorems |", "|---|---|"]
for a in sorted(groups, key=lambda a: len(groups[a])):
    md.append("| %s | %s |" % (", ".join("`%s`" % x for x in a.split()) or "none", " ".join(sorted(groups[a]))))
md.append("")
p = os.path.join(here, "DESIGN.md")
s = open(p).read()
s = re.sub(r"(<!-- axioms -->).*?(<!-- /axioms -->)", lambda m: m.group(1) + "\n" + "\n".join(md) + "\n" + m.group(2), s, flags=re.S)
open(p, "w").write(s)
print({a: len(v) for a, v in groups.items()})
