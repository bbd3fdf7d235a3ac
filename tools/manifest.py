import json
C=[]
def c(p,s,t,n): C.append(dict(property=p,status=s,theorems=[x if x.startswith("Ble.") else "Ble.Props."+x for x in t.split()],note=n))
exec(open('/verif/tools/manifest_data.py').read())
json.dump({"claims":C},open('/verif/MANIFEST.json','w'),indent=1)
