"""Insert rows into props.py, manifest.py and DESIGN.md from one description file.

usage: reg.py file.json with a list of
{"id","title","statement","quantifier","why","anchors",
 "status","theorems","note","modelled","how","disagree":[...]}
"""
import json, sys, os
R = os.path.join(os.path.dirname(__file__), "..")
def sub(path, before, text):
    p = os.path.join(R, path)
    s = open(p).read()
    i = s.index(before)
    open(p, "w").write(s[:i] + text + s[i:])
J = lambda x: json.dumps(x, ensure_ascii=False)
for e in json.load(open(sys.argv[1])):
    if "title" in e:
        sub("tools/props.py", "out = os.path.join(", "p(%s, %s,\n  %s,\n  %s,\n  %s,\n  %s)\n" % (
            J(e["id"]), J(e["title"]), J(e["statement"]), J(e["quantifier"]), J(e["why"]), J(e["anchors"])))
        sub("DESIGN.md", "\n## Disagreements between", "| %s | %s | %s |\n" % (e["id"], e["modelled"], e["how"]))
    sub("tools/manifest.py", "#--- end of table", "c(%s,%s,%s,\n  %s)\n" % (J(e["id"]), J(e["status"]), J(e["theorems"]), J(e["note"])))
    with open(os.path.join(R, "DESIGN.md"), "a") as f:
        for d in e.get("disagree", []):
            f.write("* %s: %s\n" % (e["id"], d))
