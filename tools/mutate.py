"""Seeded-bug runner: applies each mutation to a scratch copy of /verif/lean (outside /verif), rebuilds, reports which theorems fail.
usage: mutate.py MUTATIONS.py  (a file defining M = [(module, old, new, claim), ...]); appends to /verif/seeded/LOG.jsonl."""
import sys, os, re, json, subprocess, shutil
src = "/verif/lean"; dst = "/tmp/scratch/lean"
os.makedirs("/tmp/scratch", exist_ok=True)
subprocess.run(["rsync", "-a", "--delete", src + "/", dst + "/"], check=True) if shutil.which("rsync") else (shutil.rmtree(dst, ignore_errors=True), shutil.copytree(src, dst, symlinks=True))
ns = {}; exec(open(sys.argv[1]).read(), ns)
log = "/verif/seeded/LOG.jsonl"
done = set()
if os.path.exists(log):
    for l in open(log):
        d = json.loads(l); done.add((d["definition"], d["edit"]))
def enclosing(path, line):
    ls = open(path).read().split("\n")
    for i in range(min(line, len(ls)) - 1, -1, -1):
        m = re.match(r"(?:@\[.*\]\s*)?(?:private )?(theorem|def|example|instance|structure|inductive)\s*(\S*)", ls[i])
        if m: return m.group(2) if m.group(1) != "example" else "example@%d" % (i + 1)
    return "?"
def defname(text, pos):
    return enclosing_text(text, text.count("\n", 0, pos) + 1)
def enclosing_text(text, line):
    ls = text.split("\n")
    for i in range(line - 1, -1, -1):
        m = re.match(r"(?:private )?(def|structure|inductive|instance|abbrev)\s*(\S*)", ls[i])
        if m: return m.group(2)
    return "?"
for (mod, old, new, claim) in ns["M"]:
    p = f"{dst}/Verif/{mod}.lean"
    text = open(p).read()
    if text.count(old) < 1: print("NOT FOUND", mod, repr(old)[:80]); continue
    if text.count(old) > 1: print("AMBIGUOUS", mod, repr(old)[:80], text.count(old)); continue
    d = f"Verif/{mod}.lean: " + defname(text, text.index(old)); edit = f"{old!r} -> {new!r}"
    if (d, edit) in done: continue
    open(p, "w").write(text.replace(old, new))
    r = subprocess.run(["lake", "build"], cwd=dst, capture_output=True, text=True)
    out = r.stdout + r.stderr
    fails = []; 
    for m in re.finditer(r"error: (Verif/\S+\.lean):(\d+):\d+", out):
        n = f"{m.group(1)}: {enclosing(os.path.join(dst, m.group(1)), int(m.group(2)))}"
        if n not in fails: fails.append(n)
    open(p, "w").write(text)
    modelbroken = all("/Model/" in f for f in fails) and fails
    print(("SURVIVED " if not fails else "MODEL-BROKEN " if modelbroken else "caught   ") + d + "  " + edit[:100], "\n     ", fails[:6])
    sys.stdout.flush()
    if fails and not modelbroken:
        with open(log, "a") as f:
            f.write(json.dumps({"definition": d, "edit": edit, "claim": claim, "theorems_failed": fails, "theorems_tightened": []}) + "\n")
