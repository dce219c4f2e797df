#!/usr/bin/env python3
"""Run wrong-program trials.

usage: seed.py trials.json
Each trial: {"file", "old", "new", "definition", "claim", "modules"}.  The edit
is applied in a scratch copy of the Lean project and the modules are rebuilt
there.  The theorems with errors are printed and appended as one JSON line to
/verif/seeded/LOG.jsonl.
"""
import json, os, re, subprocess, sys

SCRATCH = "/tmp/seed"
subprocess.run(["rm", "-rf", SCRATCH], check=True)
subprocess.run(["cp", "-a", "/verif/lean", SCRATCH], check=True)


def name_at(path, line):
    names = None
    for i, l in enumerate(open(os.path.join(SCRATCH, path)), 1):
        m = re.match(r"(?:private |protected |noncomputable )*(theorem|lemma|def|instance|example|structure)\s*([^\s:({\[]*)", l)
        if m:
            names = m.group(2) or f"example (line {i})"
        if i == line:
            return names
    return names


def run(t):
    p = os.path.join(SCRATCH, "Verif", t["file"])
    src = open(p).read()
    if src.count(t["old"]) != 1:
        print("SKIP (occurrences %d): %s" % (src.count(t["old"]), t["definition"]))
        return
    open(p, "w").write(src.replace(t["old"], t["new"]))
    mods = t.get("modules") or ["Verif"]
    r = subprocess.run(["lake", "build"] + mods, cwd=SCRATCH, capture_output=True, text=True)
    out = r.stdout + r.stderr
    failed = []
    for m in re.finditer(r"^error: (Verif/\S+?\.lean):(\d+):\d+", out, re.M):
        n = name_at(m.group(1), int(m.group(2)))
        n = f"{m.group(1)}: {n}"
        if n not in failed:
            failed.append(n)
    open(p, "w").write(src)
    if any(n.startswith(f"Verif/{t['file']}:") for n in failed) and t["file"].startswith("Model/"):
        print("BROKEN (the edited file does not compile):", t["definition"], "|", failed[0])
        return
    rec = {"definition": t["definition"], "file": "lean/Verif/" + t["file"],
           "edit": t.get("edit") or f"{t['old'].strip()} -> {t['new'].strip()}",
           "claim": t["claim"], "failed": failed, "tightened": t.get("tightened", [])}
    if not failed:
        rec["note"] = t.get("note", "no theorem failed")
        print("SURVIVED", t["definition"], "|", rec["edit"])
    else:
        print("killed", t["definition"], "|", "; ".join(failed[:4]))
    with open("/verif/seeded/LOG.jsonl", "a") as f:
        f.write(json.dumps(rec, ensure_ascii=False) + "\n")


for t in json.load(open(sys.argv[1])):
    run(t)
