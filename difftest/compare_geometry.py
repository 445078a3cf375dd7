"""Usage: compare_geometry.py SEED COUNT. See README.md."""
import os,random,shutil,subprocess,sys,tempfile
import port_geometry as port
from port_geometry import *
HERE=os.path.dirname(os.path.abspath(__file__))
TMP=tempfile.mkdtemp()
def run_model(script,cases):
    shutil.copy(os.path.join(HERE,script),os.path.join(TMP,'run.lean'))
    return subprocess.run(['lake','env','lean','--run',os.path.join(TMP,'run.lean'),cases],cwd=os.path.join(HERE,'..','lean'),capture_output=True,text=True)

seed=int(sys.argv[1]); N=int(sys.argv[2])
rnd=random.Random(seed)
def coord(kind):
    if kind==0: return rnd.randrange(0,6)
    if kind==1: return rnd.randrange(0,40)
    if kind==2: return rnd.choice([0,1,2,2**32-1,2**32-2,2**31,2**31-1,rnd.randrange(2**32)])
    return rnd.randrange(2**21)
def pts(kind,n,closed):
    l=[(coord(kind),coord(kind)) for _ in range(n)]
    if closed and l: l.append(l[0])
    return l
def grid_region(k):
    # partition cells of a grid amongst regions
    w=rnd.randrange(2,5); h=rnd.randrange(1,4); s=rnd.choice([1,3,10])
    nr=rnd.randrange(1,4)
    regs=[[i,[],[]] for i in range(nr)]
    for x in range(w):
        for y in range(h):
            if rnd.random()<0.2: continue
            c=[(x*s,y*s),(x*s+s,y*s),(x*s+s,y*s+s),(x*s,y*s+s)]
            r=rnd.randrange(4); c=c[r:]+c[:r]
            if rnd.random()<0.3: c.reverse()
            c.append(c[0])
            g=rnd.choice(regs)
            g[1 if rnd.random()<0.9 else 2].append(('p',c))
    return [tuple(r) for r in regs]
def shear(regs):
    a,b=rnd.randrange(1,4),rnd.randrange(0,4); 
    f=lambda p:(p[0]*a+p[1]*b,p[1]*rnd2+p[0]*rnd3)
    rnd2=rnd.randrange(1,4); rnd3=rnd.randrange(0,3)
    return [(d,[('p',[f(p) for p in r[1]]) for r in o],[('p',[f(p) for p in r[1]]) for r in i]) for d,o,i in regs]
def split_edges(ring):
    d=ring[1]
    if len(d)<3: return ring
    out=[];i=0
    while i<len(d)-1:
        j=min(len(d)-1,i+rnd.randrange(1,4)); out.append(d[i:j+1]); i=j
    return ('e',out)
def polar(kind):
    import math
    n=rnd.randrange(4,25); cx=rnd.randrange(50,2000); cy=rnd.randrange(50,2000); 
    l=[]
    for i in range(n):
        r=rnd.uniform(5,50); l.append((int(cx+r*math.cos(6.28*i/n)),int(cy+r*math.sin(6.28*i/n))))
    l.append(l[0]); return l
def case():
    k=rnd.choice([0,0,0,1,2])
    m=rnd.randrange(2)
    if k==1:
        kind=rnd.randrange(4); n=rnd.randrange(0,30) if rnd.random()<.9 else rnd.randrange(30,200)
        return (1,m,pts(kind,n,rnd.random()<.5) if rnd.random()<.8 else polar(0),rnd.choice([0,1,5,50,10**4,10**6,10**9,10**13,2**63,2**64-1,rnd.randrange(2**20)]))
    if k==2:
        kind=rnd.randrange(4); n=rnd.randrange(0,12)
        return (2,m,pts(kind,n,rnd.random()<.5),rnd.randrange(4),coord(kind))
    z=rnd.random()
    if z<0.15:
        kind=rnd.randrange(4)
        regs=[]
        for i in range(rnd.randrange(0,3)):
            o=[('p',pts(kind,rnd.randrange(0,6),rnd.random()<.9)) for _ in range(rnd.randrange(0,3))]
            n=[('p',pts(kind,rnd.randrange(0,6),rnd.random()<.9)) for _ in range(rnd.randrange(0,2))]
            regs.append((i,o,n))
    elif z<0.3:
        regs=[(i,[('p',polar(0))],[]) for i in range(rnd.randrange(1,3))]
    else:
        regs=grid_region(0)
        if rnd.random()<.5: regs=shear(regs)
    if rnd.random()<.3: regs=[(d,[split_edges(r) if rnd.random()<.5 else r for r in o],[split_edges(r) if rnd.random()<.5 else r for r in i]) for d,o,i in regs]
    xs=[p for d,o,i in regs for r in o+i for p in (r[1] if r[0]=='p' else sum(r[1],[]))] or [(1,1)]
    ops=[]
    for _ in range(rnd.randrange(0,5)):
        q=rnd.randrange(3)
        if q==0: ops.append((0,))
        elif q==1:
            kk=rnd.randrange(4); p=rnd.choice(xs); v=(p[0] if kk<2 else p[1])
            if rnd.random()<.6: v=max(0,min(2**32-1,v+rnd.choice([-3,-2,-1,1,2,3])))
            ops.append((1,kk,v))
        else: ops.append((2,rnd.choice([0,1,2,9,100,10**4,10**6,2**64-1])))
    return (0,m,regs,ops)
def fl(l): return [len(l)]+[c for p in l for c in p]
def ser(c):
    if c[0]==1: return [1,c[1]]+fl(c[2])+[c[3]]
    if c[0]==2: return [2,c[1]]+fl(c[2])+[c[3],c[4]]
    o=[0,c[1],len(c[2])]
    def rs(r): return [0]+fl(r[1]) if r[0]=='p' else [1,len(r[1])]+sum((fl(e) for e in r[1]),[])
    for d,a,b in c[2]:
        o+=[d,len(a)]+sum((rs(r) for r in a),[])+[len(b)]+sum((rs(r) for r in b),[])
    o+=[len(c[3])]+[x for q in c[3] for x in q]
    return o
KM=['minx','maxx','miny','maxy']
def runpy(c):
    port.MODE='debug' if c[1]==0 else 'release'
    out=[]
    sp=lambda l:" ".join(f"{x},{y}" for x,y in l)
    try:
        if c[0]==1: return sp(simplify_edge(c[2],c[3]))
        if c[0]==2: return sp(clip_edge(c[2],(KM[c[3]],c[4])))
        b=TB()
        for r in c[2]: b.add_region(r)
        t=b.into_topology(); out.append(show(t))
        for q in c[3]:
            if q[0]==0: t=normalize(t)
            elif q[0]==1: t=clip_topology(t,(KM[q[1]],q[2]))
            else: t=simplify(t,q[1])
            out.append(show(t))
    except P as e: out.append('!'+e.args[0])
    return "#".join(out)
cases=[case() for _ in range(N)]
f=os.path.join(TMP,'cases.txt')
open(f,'w').write("\n".join(" ".join(map(str,ser(c))) for c in cases))
exp=[runpy(c) for c in cases]
r=run_model('run_geometry.lean.txt',f)
got=r.stdout.split("\n")[:-1]
if r.stderr: print(r.stderr[:500])
print(len(exp),len(got))
from collections import Counter
st=Counter()
bad=0
for c,e,g in zip(cases,exp,got):
    st[(c[0],e[e.rfind('!'):] if '!' in e else 'ok')]+=1
    if e!=g:
        bad+=1
        if bad<4: print("DIFF",ser(c),"\n  py",e,"\n  ln",g)
print("bad",bad); print(sorted(st.items()))
