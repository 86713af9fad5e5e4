#!/usr/bin/env python3
"""Check the citations in the model comments: every cited file exists, every line range lies inside it, and a
function named directly before a citation occurs in the cited lines."""
import os, re, sys
repo = sys.argv[1] if len(sys.argv) > 1 else "/repo"
files = {}
for d, ds, fs in os.walk(repo):
    if ".git" in d: continue
    for f in fs:
        if f.endswith((".rs", ".py", ".toml")):
            files.setdefault(f, []).append(os.path.relpath(os.path.join(d, f), repo))
lines = {}
def get(p):
    if p not in lines: lines[p] = open(os.path.join(repo, p), errors="replace").read().split("\n")
    return lines[p]
def resolve(p):
    if os.path.exists(os.path.join(repo, p)): return [p]
    return [q for q in files.get(os.path.basename(p), []) if q.endswith("/" + p)]
base = os.path.join(os.path.dirname(os.path.abspath(__file__)), "..", "lean", "Verif")
bad = 0
for d, _, fs in os.walk(base):
    for f in sorted(fs):
        if not f.endswith(".lean"): continue
        t = open(os.path.join(d, f)).read()
        for m in re.finditer(r"(?:`([A-Za-z_:]+)`[^`]{0,30})?\(?`([\w./]+\.(?:rs|py)):([\d,\- ]+)", t):
            name, p, rng = m.groups()
            qs = resolve(p)
            ln = t[:m.start()].count("\n") + 1
            if not qs:
                print(f"{f}:{ln}: no file {p}"); bad += 1; continue
            nums = [int(x) for x in re.findall(r"\d+", rng)]
            ok = any(max(nums) <= len(get(q)) for q in qs)
            if not ok:
                print(f"{f}:{ln}: {p}:{rng} beyond end"); bad += 1; continue
            if name:
                short = name.split("::")[-1].split(":")[-1]
                lo, hi = min(nums), max(nums)
                if not any(short in "\n".join(get(q)[lo-1:hi]) for q in qs):
                    where = [i+1 for q in qs for i, l in enumerate(get(q)) if re.search(r"(fn|def|struct|enum|class) "+re.escape(short)+r"\b", l)]
                    print(f"{f}:{ln}: `{name}` not in {p}:{rng}  (defined at {where})"); bad += 1
print(bad, "problems")
