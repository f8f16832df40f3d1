import json,re,glob
P='Satisfy.Props.'
thms={}
for f in sorted(glob.glob('/verif/lean/Verif/Props/*.lean')):
    for m in re.finditer(r'^theorem ((C\d\d)_[\w\']+)',open(f).read(),re.M):
        thms.setdefault(m[2],[]).append(P+m[1])
thms['C01'].append(P+'floor_division_meaning')
thms['C08'].append(P+'cmp_eq_truth')
notes=json.load(open('/verif/tools/notes.json'))
claims=[]
for l in open('/verif/properties.jsonl'):
    i=json.loads(l)['id']
    if i in thms and i in notes:
        st,n=notes[i]
        claims.append({"property":i,"status":st,"theorems":thms[i],"note":n})
open('/verif/MANIFEST.json','w').write('{"claims": [\n'+',\n'.join(json.dumps(c) for c in claims)+'\n]}\n')
print([c['property'] for c in claims], set(thms)-set(notes))
