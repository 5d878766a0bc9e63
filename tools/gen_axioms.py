#!/usr/bin/env python3
"""Write AXIOMS.md: the axioms every theorem named in MANIFEST.json depends on (run after `lake build`)."""
import json, os, re, subprocess, tempfile
ROOT = os.path.join(os.path.dirname(os.path.abspath(__file__)), "..")
LEAN = os.path.join(ROOT, "lean")
full = {}
for d, _, fs in os.walk(os.path.join(LEAN, "Verif")):
    for f in sorted(fs):
        ns = []
        for l in open(os.path.join(d, f)):
            m = re.match(r"namespace\s+(\S+)", l)
            if m: ns.append(m.group(1))
            m = re.match(r"end\s+(\S+)", l)
            if m and ns and ns[-1] == m.group(1): ns.pop()
            m = re.match(r"theorem\s+(\S+)", l)
            if m: full.setdefault(m.group(1), ".".join(ns + [m.group(1)]))
claims = json.load(open(os.path.join(ROOT, "MANIFEST.json")))["claims"]
names = [(c["property"], full[t]) for c in claims for t in c["theorems"]]
with tempfile.NamedTemporaryFile("w", suffix=".lean", delete=False) as f:
    f.write("import Verif\n" + "\n".join("#print axioms " + n for _, n in names))
out = subprocess.run(["lake", "env", "lean", f.name], cwd=LEAN, capture_output=True, text=True).stdout
os.unlink(f.name)
out = re.sub(r"\n\s+", " ", out)
ax = {}
for l in out.splitlines():
    m = re.match(r"'(.*)' depends on axioms: \[(.*)\]", l)
    if m: ax[m.group(1)] = m.group(2)
    m = re.match(r"'(.*)' does not depend on any axioms", l)
    if m: ax[m.group(1)] = "none"
with open(os.path.join(ROOT, "AXIOMS.md"), "w") as g:
    g.write("# Axioms of the theorems named in MANIFEST.json\n\nWritten by `tools/gen_axioms.py` from `#print axioms`.\n\n"
            "| property | theorem | axioms |\n|---|---|---|\n")
    for p, n in names: g.write(f"| {p} | `{n}` | {ax[n]} |\n")
print(len(names))
