"""Helper: replace title/statement/quantifier of a property in props.py; mark ids proved; add imports."""
import re, json
PROPS='/verif/tools/props.py'
def rep(cid, title, stmt, quant):
    s=open(PROPS).read()
    m=re.search(r'P\("%s", "(?:[^"\\]|\\.)*",\n  "(?:[^"\\]|\\.)*",\n  (?:"(?:[^"\\]|\\.)*"|[A-Z]+), '%cid, s)
    assert m, cid
    d=lambda x: json.dumps(x,ensure_ascii=False)
    s=s[:m.start()]+'P("%s", %s,\n  %s,\n  %s, '%(cid,d(title),d(stmt),d(quant))+s[m.end():]
    open(PROPS,'w').write(s)
def proved(*ids):
    p='/verif/tools/status.py'
    s=open(p).read()
    m=re.search(r'"(C01 .*?)"\.split',s)
    l=sorted(set(m.group(1).split())|set(ids), key=lambda c:int(c[1:]))
    s=s[:m.start(1)]+" ".join(l)+s[m.end(1):]
    open(p,'w').write(s)
def imports(*ms):
    p='/verif/lean/Verif.lean'
    s=open(p).read().rstrip()
    for x in ms:
        if ("import Verif.Props.%s\n"%x) not in s+"\n": s+="\nimport Verif.Props.%s"%x
    open(p,'w').write(s+"\n")
