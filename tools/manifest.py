# regenerates /verif/MANIFEST.json from the table below
import json
C=[]
def c(p,s,t,n=""): C.append(dict(property=p,status=s,theorems=t,note=n))
exec(open('/verif/tools/claims.py').read())
json.dump({"claims":C},open('/verif/MANIFEST.json','w'),indent=1)
