# Writes AXIOMS.md: the axioms each theorem named in MANIFEST.json depends on, as Lean reports them.
import json,re,subprocess
m=json.load(open('/verif/MANIFEST.json'))
ts=[]
for c in m['claims']:
    for t in c['theorems']:
        if t not in ts: ts.append(t)
open('/tmp/ax.lean','w').write("import Verif\n"+"\n".join(f"#print axioms {t}" for t in ts))
t=subprocess.run("lake env lean /tmp/ax.lean",shell=True,cwd="/verif/lean",capture_output=True,text=True).stdout
out=["# Axioms of the theorems named in MANIFEST.json","","Written by `tools/axioms.py` from `#print axioms`.","","| theorem | axioms |","|---|---|"]
n=0
for x in re.finditer(r"'([^']+)' (depends on axioms: \[([^\]]*)\]|does not depend on any axioms)",t):
    ax=re.sub(r'\s+',' ',x.group(3)) if x.group(3) else 'none'
    out.append(f"| `{x.group(1)}` | {ax} |"); n+=1
open('/verif/AXIOMS.md','w').write("\n".join(out)+"\n")
print(n,"of",len(ts))
