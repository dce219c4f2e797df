#!/usr/bin/env python3
"""Check the source citations in the comments of the model.

For every `/-- ... -/` comment with a citation (path:first-last) under /repo this
checks that the file exists, that the lines exist, and that the first name in
backquotes before the citation occurs in the cited lines (two lines of
slack) or, if only part of a function is cited, at most 200 lines before."""
import re, glob, sys, os
REPO = "/repo/"
bad = total = 0
for path in sorted(glob.glob("/verif/lean/Verif/**/*.lean", recursive=True)):
    text = open(path).read()
    for m in re.finditer(r"/--(.*?)-/", text, re.S):
        doc = m.group(1)
        line = text.count("\n", 0, m.start()) + 1
        prev = 0
        for c in re.finditer(r"((?:src|include/marley|examples)/[\w/.]+\.(?:cc|hh)):([\d,\s-]+\d|\d+)", doc):
            total += 1
            where = f"{os.path.relpath(path, '/verif')}:{line}: {c.group(0)!r}"
            f = REPO + c.group(1)
            if not os.path.exists(f):
                print("NOFILE", where); bad += 1; continue
            src = open(f).read().split("\n")
            cited = ""
            ok = True
            for r in re.split(r"[,\s]+", c.group(2).strip()):
                if not r: continue
                a, _, b = r.partition("-")
                a = int(a); b = int(b or a)
                if b > len(src) or a > b: ok = False
                cited += "\n".join(src[max(0, a - 3):b + 2]) + "\n"
                before = "\n".join(src[max(0, a - 200):a])
            if not ok:
                print("RANGE", where); bad += 1; continue
            names = re.findall(r"`([^`]+)`", doc[prev:c.start()])
            prev = c.end()
            if names:
                words = [w for w in re.findall(r"[A-Za-z_]\w+", names[-1]) if len(w) > 2]
                inner = b - a < 100 and words and words[-1] + "(" in before
                if words and not inner and not any(w in cited for w in words):
                    print("NAME", where, "missing:", names[-1]); bad += 1
print(f"{total} citations, {bad} to look at")
