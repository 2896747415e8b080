import json,sys
p='/verif/tools/notes.json'
n=json.load(open(p))
for a in sys.argv[1:]:
    k,v=a.split('=',1)
    n[k]={'note':v}
json.dump(n,open(p,'w'),indent=1,ensure_ascii=False)
