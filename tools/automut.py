"""Automatic seeded bugs: applies small syntactic operators to every definition of lean/Verif/Model in a scratch copy (outside /verif),
rebuilds, and stops at the first proof that fails.  usage: automut.py SCRATCH_DIR RESULTS.jsonl [module ...]
Results: {"module","line","definition","edit","verdict": "invalid" | "caught" | "survived","failed"}; already recorded mutants are skipped."""
import sys, os, re, json, subprocess, signal, random
src = "/verif/lean"; dst = sys.argv[1]; res = sys.argv[2]; mods = sys.argv[3:]
subprocess.run(["rm", "-rf", dst]); subprocess.run(["mkdir", "-p", os.path.dirname(dst)]); subprocess.run(["cp", "-a", src, dst], check=True)
OPS = [
 (r"≤", "<"), (r"≥", ">"), (r"(?<![<:=\w])<(?![|<>;=-])(?= )", "≤"), (r"(?<= )>(?= )", "≥"),
 (r"&&", "||"), (r"\|\|", "&&"), (r" ∧ ", " ∨ "), (r" ∨ ", " ∧ "),
 (r"\+ 1\b", "+ 2"), (r" \+ 1\b", ""), (r" - 1\b", ""), (r"\btrue\b", "false"), (r"\bfalse\b", "true"),
 (r"(?<= )!(?=[\w(])", ""), (r"(?<=\()!(?=[\w(])", ""), (r"¬ ?", ""),
 (r" == ", " != "), (r" != ", " == "), (r"(?<=decide \()([^()=≤<≥>]+) = ", r"\1 ≠ "), (r" ≠ ", " = "),
 (r"\.take\b", ".drop"), (r"\.drop\b", ".take"), (r"\.reverse\b", ""), (r"\bList\.reverse\b", "id"),
 (r"\.valueError\b", ".typeError"), (r"\.typeError\b", ".valueError"), (r"\.ioError\b", ".valueError"), (r"\.keyError\b", ".valueError"),
 (r"\.parameterError\b", ".valueError"), (r"\.runtimeError\b", ".valueError"), (r"\.notImplemented\b", ".valueError"), (r"\.attributeError\b", ".valueError"), (r"\.indexError\b", ".valueError"),
 (r"\.isEmpty\b", ".isEmpty.not"), (r"\.isSome\b", ".isNone"), (r"\.isNone\b", ".isSome"),
 (r"\bif (?!h)([^\n]+?) then", r"if ¬ (\1) then"), (r"\belse if ([^\n]+?) then", r"else if ¬ (\1) then"),
 (r"\.lower\b", ".upper"), (r"\.upper\b", ".lower"), (r"\.start\b", ".stop"), (r"\.stop\b", ".start"),
 (r"\b0\b", "1"), (r"\.filter\b", ".map id <| List.filter"), (r"\.head\?", ".getLast?"), (r"\.getLast\?", ".head?"),
 (r"\.any\b", ".all"), (r"\.all\b", ".any"), (r"\.fst\b", ".snd"), (r"\.snd\b", ".fst"), (r"\bmin\b", "max"), (r"\bmax\b", "min"),
 (r" \+ (?!1\b)", " - "), (r" - (?!1\b|/)", " + "), (r"\(\w+ ++ \w+\)", None),
 (r"(\w+) \+\+ (\w+)(?![\w.])", r"\2 ++ \1"),
 (r"\n +(?:let _ ← |_ ← )?(?:checkArg|checkNotNone|checkState|Prog\.check\w*|P?rog\.ofRes \(check)[^\n]*(?=\n +\S)", ""),
 (r"'([^'\\])'", lambda m: "'~'"), (r"\"([^\"\\\n]+)\"", lambda m: '"' + m.group(1) + '~"'),
]
KW = {"let", "fun", "match", "with", "if", "then", "else", "do", "from", "in", "have", "by", "def", "where", "at", "deriving", "instance", "return", "variable", "open", "end", "namespace"}
OPS2 = [
 (r"\b([a-z]\w*)'(?![\w'])", r"\1"), (r"(\w+) :: (\w+)", r"\2"), (r" \+\+ \[[^\]\n]*\]", ""), (r"=> some [^\n]+", "=> none"), (r"=> \.ok [^\n]+", "=> .error .other"),
 (r"\b([a-z]\w*) ([a-z]\w*)\b(?=[ )\n])", lambda m: m.group(0) if m.group(1) in KW or m.group(2) in KW else m.group(2) + " " + m.group(1)),
 (r"\(([a-zA-Z][\w.]*) (\w+)\)", r"\2"), (r"\.closed\b", ".opened"), (r"\.opened\b", ".closed"), (r"\.closed\b", ".open"), (r"\.open\b", ".closed"),
 (r"\b1\b", "2"), (r"\.(?:filter|map|dropWhile|takeWhile|eraseDups) (?:\w+|\([^()\n]*\))", ""), (r"\.tail\b", ""), (r"\.dropLast\b", ""),
 (r"\.below\b", ".above"), (r"\.above\b", ".below"), (r"\.inl\b", ".inr"), (r"\.inr\b", ".inl"), (r"\.1\b", ".2"), (r"\.2\b", ".1"),
 (r"=> \(\.error e, (\w+)\)", r"=> (.ok default, \1)"), (r"=> \.error e\b", "=> .error .other"),
]
if os.environ.get("OPS2"): OPS = OPS2
MAXN = int(os.environ.get("MAXN", "1000000"))
def code_mask(t):
    m = bytearray(b"\1" * len(t)); i = 0
    while i < len(t):
        if t.startswith("/-", i):
            d = 1; j = i + 2
            while d and j < len(t):
                if t.startswith("/-", j): d += 1; j += 2
                elif t.startswith("-/", j): d -= 1; j += 2
                else: j += 1
            for k in range(i, j): m[k] = 0
            i = j
        elif t.startswith("--", i):
            j = t.find("\n", i); j = len(t) if j < 0 else j
            for k in range(i, j): m[k] = 0
            i = j
        else: i += 1
    return m
def encl(ls, line):
    for i in range(min(line, len(ls)) - 1, -1, -1):
        m = re.match(r"(?:@\[.*\]\s*)?(?:private |noncomputable )?(theorem|def|example|instance|structure|inductive|abbrev)\s*(\S*)", ls[i])
        if m: return (m.group(1), m.group(2) if m.group(1) != "example" else "example@%d" % (i + 1))
    return ("?", "?")
done = set()
if "--count" in mods: mods = []; COUNT = True
else: COUNT = False
if os.path.exists(res):
    for l in open(res):
        d = json.loads(l); done.add((d["module"], d["text"], d["edit"], d["definition"]))
if not mods:
    mods = sorted(f[:-5] for f in os.listdir(src + "/Verif/Model") if f.endswith(".lean"))
def build():
    p = subprocess.Popen(["nice", "lake", "build"], cwd=dst, stdout=subprocess.PIPE, stderr=subprocess.STDOUT, text=True, start_new_session=True)
    verdict = "survived"; where = None
    for line in p.stdout:
        m = re.search(r"error: (Verif/\S+\.lean):(\d+):\d+", line)
        if m:
            f, n = m.group(1), int(m.group(2))
            k, name = encl(open(os.path.join(dst, f)).read().split("\n"), n)
            where = f"{f}: {name}"
            if f.startswith("Verif/Model/") and k not in ("theorem", "example"): verdict = "invalid"
            else: verdict = "caught"
            os.killpg(p.pid, signal.SIGKILL); break
    p.wait()
    if verdict == "survived" and p.returncode != 0: verdict = "unclear"
    return verdict, where
for mod in mods:
    path = f"{dst}/Verif/Model/{mod}.lean"; text = open(path).read(); mask = code_mask(text); ls = text.split("\n")
    cands = []
    for pat, new in OPS:
        if new is None: continue
        for m in re.finditer(pat, text):
            if not all(mask[k] for k in range(m.start(), m.end())): continue
            ln = text.count("\n", 0, m.start()) + 1
            k, name = encl(ls, ln)
            if k not in ("def", "instance", "abbrev"): continue
            # defs of Prop-valued or deriving lines are left
            rep = m.expand(new) if isinstance(new, str) else new(m)
            if rep == m.group(0): continue
            cands.append((m.start(), m.end(), rep, ln, name))
    if COUNT: print(mod, len(cands)); continue
    random.Random(mod).shuffle(cands)
    valid = 0
    for (a, b, rep, ln, name) in cands:
        if valid >= MAXN: break
        line = ls[ln - 1].strip(); col = a - (text.rfind("\n", 0, a) + 1)
        edit = f"col {col}: {text[a:b]!r} -> {rep!r}"
        if (mod, line, edit, name) in done: continue
        open(path, "w").write(text[:a] + rep + text[b:])
        v, w = build()
        open(res, "a").write(json.dumps({"module": mod, "line": ln, "definition": name, "text": line, "edit": edit, "verdict": v, "failed": w}, ensure_ascii=False) + "\n")
        done.add((mod, line, edit, name)); valid += v != "invalid"
    open(path, "w").write(text)
