"""Appends the caught mutants of automut result files to seeded/LOG.jsonl (each once)."""
import json, sys, re
log='/verif/seeded/LOG.jsonl'
props={json.loads(l)['id']: json.loads(l)['title'] for l in open('/verif/properties.jsonl')}
seen={(d['definition'],d['edit']) for d in map(json.loads,open(log))}
n=0
with open(log,'a') as out:
    for f in sys.argv[1:]:
        for l in open(f):
            d=json.loads(l)
            if d['verdict']!='caught' or not d.get('failed'): continue
            df=f"Verif/Model/{d['module']}.lean: {d['definition']}"
            ed=f"line {d['line']}, {d['edit']} in `{d['text'].strip()}` (automatic mutation)"
            if (df,ed) in seen: continue
            seen.add((df,ed))
            m=re.search(r'\b(C\d\d+)_',d['failed'])
            claim=f"{m.group(1)}: {props.get(m.group(1),'')}" if m else f"the first proof to fail is {d['failed']}, on which the properties of {d['module']} rest"
            out.write(json.dumps({"definition":df,"edit":ed,"claim":claim,"theorems_failed":[d['failed']],"theorems_tightened":[]},ensure_ascii=False)+'\n'); n+=1
print(n)
