import json
C=[]
def c(prop,status,theorems,note=""):
    C.append({"property":prop,"status":status,"theorems":theorems.split(),"note":note})
exec(open("/verif/tools/claims.py").read())
C.sort(key=lambda x:x["property"])
open("/verif/MANIFEST.json","w").write(json.dumps({"claims":C},indent=1)+"\n")
print(len(C))
