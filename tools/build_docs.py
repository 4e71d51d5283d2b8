import json, os, sys
sys.path.insert(0, os.path.dirname(__file__))
from props import PROPS
root = os.path.join(os.path.dirname(__file__), "..")
import glob, re
from status import STATUS
# every theorem in Verif/Props named Cnn_* is listed under property Cnn
found = {}
for fn in sorted(glob.glob(os.path.join(root, "lean/Verif/Props/*.lean"))):
    ns = []
    for line in open(fn):
        m = re.match(r"namespace (\S+)", line)
        if m: ns.append(m.group(1)); continue
        m = re.match(r"end (\S+)", line)
        if m and ns and ns[-1] == m.group(1): ns.pop(); continue
        m = re.match(r"theorem _root_\.((?:\w+\.)*)(C\d\d+)_(\w+)", line)
        if m: found.setdefault(m.group(2), []).append(m.group(1) + m.group(2) + "_" + m.group(3)); continue
        m = re.match(r"theorem (C\d\d+)_(\w+)", line)
        if m: found.setdefault(m.group(1), []).append(".".join(ns) + "." + m.group(1) + "_" + m.group(2))
for p in PROPS:
    p["theorems"] = found.get(p["id"], [])
    p["status"], p["note"] = STATUS.get(p["id"], ("partial", "Not proved yet."))
    if not p["theorems"] and p["status"] == "proved": raise SystemExit("no theorems for " + p["id"])
PROPS.sort(key=lambda p: int(p["id"][1:]))
ids = [p["id"] for p in PROPS]; assert len(set(ids)) == len(ids)
with open(os.path.join(root, "properties.jsonl"), "w") as f:
    for p in PROPS:
        f.write(json.dumps({k: p[k] for k in ("id","title","statement","quantifier","why_tests_cant","anchors")}) + "\n")
with open(os.path.join(root, "MANIFEST.json"), "w") as f:
    json.dump({"claims": [{"property": p["id"], "status": p["status"], "theorems": p["theorems"], "note": p["note"]} for p in PROPS]}, f, indent=1)
d = os.path.join(root, "DESIGN.md")
s = open(d).read()
a, b = "<!-- BEGIN PROPERTY TABLE -->", "<!-- END PROPERTY TABLE -->"
pre, rest = s.split(a); _, post = rest.split(b)
t = "\n".join(f"* **{p['id']} {p['title']}** — {p['design']}" + (f" *{p['note']}*" if p['note'] else "") for p in PROPS)
open(d, "w").write(pre + a + "\n" + t + "\n" + b + post)
