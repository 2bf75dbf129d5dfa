#!/usr/bin/env python3
# writes MANIFEST.json from the table below
import json,os
C=[]
def c(p,st,th,note): C.append({"property":p,"status":st,"theorems":th,"note":note})
P="Verif.Props."
exec(open(os.path.join(os.path.dirname(__file__),"claims.py")).read())
json.dump({"claims":C},open(os.path.join(os.path.dirname(__file__),"../MANIFEST.json"),"w"),indent=1)
print(len(C))
