import json
C=[]
def c(p,status,theorems,note=""):
    C.append(dict(property=p,status=status,theorems=theorems,note=note))
exec(open('/verif/tools/claims.py').read())
json.dump(dict(claims=C),open('/verif/MANIFEST.json','w'),indent=1)
# check the names exist
import re,glob
src="\n".join(open(f).read() for f in glob.glob('/verif/lean/Verif/**/*.lean',recursive=True))
for x in C:
    for t in x['theorems']:
        n=t.split('.')[-1]
        if not re.search(r'theorem\s+'+re.escape(n)+r'\b',src): print("MISSING",t)
ids=[json.loads(l)['id'] for l in open('/verif/properties.jsonl')]
print("unclaimed:",[i for i in ids if i not in [x['property'] for x in C]])
