"""Lists definitions of lean/Verif/Model that nothing else mentions, and those no Props file mentions (directly or via other definitions)."""
import re,glob
defs={}
for f in glob.glob("/verif/lean/Verif/Model/*.lean"):
    t=open(f).read()
    for m in re.finditer(r"^(?:@\[.*\]\s*)?(?:private |noncomputable )?(?:def|abbrev)\s+(\S+)",t,re.M): defs.setdefault(m.group(1).split(".")[-1],[]).append((f,m.group(1)))
alltext={f:open(f).read() for f in glob.glob("/verif/lean/Verif/**/*.lean",recursive=True)}
for n,l in sorted(defs.items()):
    c=sum(len(re.findall(r"(?<![\w])"+re.escape(n)+r"(?![\w'])",t)) for t in alltext.values())
    if c<=len(l): print("dead:",l)
    p=sum(len(re.findall(r"(?<![\w])"+re.escape(n)+r"(?![\w'])",t)) for f,t in alltext.items() if "/Props/" in f or "/Proofs/" in f)
    if p==0 and c>len(l): print("not in proofs:",n, l[0][0].split("/")[-1])
