#!/usr/bin/env python3
"""Print the axioms of every theorem named in MANIFEST.json.

Run after `lake build`; fails if a theorem is missing or depends on anything
other than propext, Classical.choice and Quot.sound.
"""
import json, os, re, subprocess, sys, tempfile

here = os.path.dirname(os.path.abspath(__file__))
lean = os.path.join(here, "..", "lean")
names = []
for c in json.load(open(os.path.join(here, "..", "MANIFEST.json")))["claims"]:
    names += c["theorems"]
with tempfile.NamedTemporaryFile("w", suffix=".lean", delete=False) as f:
    f.write("import Verif\n")
    for n in names:
        f.write("#print axioms %s\n" % n)
out = subprocess.run(["lake", "env", "lean", f.name], cwd=lean, capture_output=True, text=True)
os.unlink(f.name)
text = out.stdout + out.stderr
ok = out.returncode == 0
allowed = {"propext", "Classical.choice", "Quot.sound"}
with open(os.path.join(here, "..", "AXIOMS.txt"), "w") as f:
    for m in re.finditer(r"'([^']*)' (?:depends on axioms: \[([^\]]*)\]|does not depend on any axioms)", text):
        f.write("%s: %s\n" % (m.group(1), " ".join((m.group(2) or "none").replace(",", " ").split())))
for m in re.finditer(r"depends on axioms: \[([^\]]*)\]", text):
    if not set(x.strip() for x in m.group(1).split(",")) <= allowed:
        ok = False
        print(m.group(0))
if out.returncode:
    print(text)
print("%d theorems, %s" % (len(names), "ok" if ok else "PROBLEM"))
sys.exit(0 if ok else 1)
