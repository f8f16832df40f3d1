import re,glob,os
files={}
for p in glob.glob('/repo/src/satisfy/**/*.py',recursive=True):
    files[os.path.relpath(p,'/repo/src/satisfy')]=open(p).read().split('\n')
def find(n):
    n=n.lstrip('/')
    n=re.sub(r'^(repo/)?(src/)?(satisfy/)?','',n)
    c=[k for k in files if k==n] or [k for k in files if k.endswith('/'+n)]
    return c
seen={}
for p in sorted(glob.glob('/verif/lean/Verif/**/*.lean',recursive=True)):
    for i,l in enumerate(open(p).read().split('\n'),1):
        for m in re.finditer(r'([\w/]+\.py):((?:\d+(?:-\d+)?)(?:, ?\d+(?:-\d+)?)*)',l):
            for r in re.findall(r'\d+(?:-\d+)?',m.group(2)):
                seen.setdefault((m.group(1),r),[]).append((os.path.relpath(p,'/verif/lean/Verif'),i,l.strip()))
for (f,r),us in sorted(seen.items(),key=lambda x:(x[0][0],int(x[0][1].split('-')[0]))):
    c=find(f)
    a,*b=map(int,r.split('-')); b=b[0] if b else a
    if len(c)!=1: print('??',f,r,c,us[0][:2]); continue
    L=files[c[0]]
    g=lambda k:L[k-1].strip()[:60] if 0<k<=len(L) else 'OUT OF RANGE'
    print(f'{f}:{r} | {g(a)} … {g(b)}')
    for u in us[:3]: print('      ',u[0],u[1],u[2][:130])
