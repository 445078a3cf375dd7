"""Line-by-line port of geo, topology/build, normalize, clip and simplify of /repo/src.

Objects stand for the memory that the raw pointers refer to."""
class P(Exception): pass
MODE='debug'
MIN,MAX=-2**63,2**63-1
def i64(v):
    if MIN<=v<=MAX: return v
    if MODE=='debug': raise P('overflow')
    return (v+2**63)%2**64-2**63
def usz(v):
    if 0<=v<2**64: return v
    if MODE=='debug': raise P('overflow')
    return v%2**64
def at(l,i):
    if not (0<=i<len(l)): raise P('index')
    return l[i]
def signed_area2(pts):
    a=0
    for p1,p2 in zip(pts,pts[1:]):
        t1=i64(p1[0]*p2[1]); t2=i64(p2[0]*p1[1])
        a=i64(a+i64(t1-t2))
    return a
def split(a):
    if a>=0: return (a,'cw')
    n=i64(-a)
    return (n%2**64,'ccw')
def ring_awo(ring):
    k,d=ring
    if k=='e':
        a=0
        for e in d: a=i64(a+signed_area2(e))
        return split(a)
    return split(signed_area2(d))
def ring_edges(ring):
    k,d=ring
    if k=='e': return [list(e) for e in d]
    return [[p,q] for p,q in zip(d,d[1:])]
class Ob: pass
def mk(**kw):
    o=Ob(); o.__dict__.update(kw); return o
class TB:
    def __init__(s): s.regions=[]; s.edges={}
    def add_region(s,r):
        data,outer,inner=r
        bo=s.build_rings(outer)
        if len(bo)>0:
            bi=s.build_rings(inner)
            s.regions.append((data,bo,bi))
    def build_rings(s,rings):
        ret=[]
        for r in rings:
            x=s.build_ring(r)
            if x is not None: ret.append(x)
        return ret
    def build_ring(s,ring):
        if ring_awo(ring)[0]==0: return None
        ret=[]
        for e in ring_edges(ring):
            d=s.bde(e)
            if d is not None: ret.append(d)
        return ret
    def bde(s,edge):
        pts=list(edge)
        if len(pts)<2 or (len(pts)==2 and pts[0]==pts[1]): return None
        p1=pts[0]; p2=pts[-1]
        if p1<p2 or (p1==p2 and ring_awo(('p',pts))[1]=='cw'): d='F'
        else:
            pts.reverse(); d='B'
        nid=len(s.edges)
        k=tuple(pts)
        if k not in s.edges: s.edges[k]=nid
        return (s.edges[k],d)
    def into_topology(s):
        slots=[None]*len(s.edges)
        for k,i in s.edges.items(): slots[i]=mk(points=list(k),rings=[None,None])
        if any(x is None for x in slots): raise P('explicit')
        return finish(slots,s.regions)
def finish(edges,bregions):
    def conv(br): return mk(des=[mk(edge=at(edges,i),direction=d) for i,d in br],region=None)
    regions=[]
    for data,bo,bi in bregions:
        o=[conv(r) for r in bo]; n=[conv(r) for r in bi]
        regions.append(mk(data=data,outer=o,inner=n))
    for rg in regions:
        for ring in rg.outer+rg.inner:
            ring.region=rg
            for de in ring.des:
                e=de.edge
                if e.rings[0] is None: i=0
                else:
                    if e.rings[1] is not None: raise P('assert')
                    i=1
                e.rings[i]=ring
    return mk(regions=regions,edges=edges)
# normalize
def ne_with(de):
    e=de.edge
    pts=list(e.points)
    if de.direction=='B': pts.reverse()
    if e.rings[0] is None: raise P('nullDeref')
    return mk(points=pts,regions=(e.rings[0].region, None if e.rings[1] is None else e.rings[1].region))
def cl(e): return mk(points=list(e.points),regions=e.regions)
def same(a,b): return a[0] is b[0] and a[1] is b[1]
def sl(l,a,b):
    if a>b or b>len(l) or a<0: raise P('index')
    return l[a:b]
def rot_island(e):
    idx=None
    for i,p in enumerate(e.points):
        if idx is None or p<e.points[idx]: idx=i
    if idx is None or idx==0: return cl(e)
    if e.points[0]!=e.points[-1]: raise P('assert')
    n=len(e.points)
    return mk(points=sl(e.points,idx,n-1)+sl(e.points,0,idx+1),regions=e.regions)
def rot_edges(es):
    if len(es)==1: return [rot_island(es[0])]
    idx=None
    keys=[at(e.points,0) for e in es]
    for i,k in enumerate(keys):
        if idx is None or k<keys[idx]: idx=i
    if idx is None or idx==0: return [cl(e) for e in es]
    return [cl(e) for e in es[idx:]+es[:idx]]
def join_related(es):
    ret=[]
    for e in es:
        if ret and same(ret[-1].regions,e.regions):
            ret[-1].points.extend(sl(e.points,1,len(e.points)))
        else: ret.append(cl(e))
    if len(ret)>1 and same(ret[0].regions,ret[-1].regions):
        pts=list(ret[-1].points)
        pts.extend(sl(ret[0].points,1,len(ret[0].points)))
        ret[0].points=pts
        ret.pop()
    return ret
def calc_wo(es):
    a=0
    for e in es:
        for p1,p2 in zip(e.points,e.points[1:]):
            a=i64(a+i64(i64(p1[0]*p2[1])-i64(p2[0]*p1[1])))
    if a==0: raise P('assert')
    return 'cw' if a>0 else 'ccw'
def wind(es,o):
    if o==calc_wo(es): return [cl(e) for e in es]
    ret=[]
    for e in es:
        n=cl(e); n.points.reverse(); ret.append(n)
    ret.reverse()
    return ret
def sortrings(rs):
    if len(rs)<2: return rs
    return sorted(rs,key=lambda r: at(at(r,0).points,0))
def join_adj(rings):
    ret=[]; tm={}
    for ring in rings:
        red=[cl(e) for e in ring if e.regions[0] is e.regions[1]]
        use=[cl(e) for e in ring if not (e.regions[0] is e.regions[1])]
        if len(red)==0: ret.append(use)
        elif len(use)==0: pass
        else:
            for e in use:
                k=at(e.points,0)
                if k in tm: raise P('explicit')
                tm[k]=cl(e)
    if len(tm)==0: return ret
    while tm:
        start=min(tm); end=start; es=[]
        while True:
            if end not in tm: raise P('explicit')
            e=tm.pop(end)
            if not e.points: raise P('explicit')
            end=e.points[-1]
            es.append(e)
            if end==start: break
        es=join_related(es); es=rot_edges(es)
        ret.append(es)
    return sortrings(ret)
def norm_rings(rings,o):
    rs=[]
    for r in rings:
        es=[ne_with(de) for de in r.des]
        es=join_related(es); es=wind(es,o); es=rot_edges(es)
        rs.append(es)
    rs=join_adj(rs); rs=sortrings(rs)
    return [('e',[e.points for e in r]) for r in rs]
def normalize(t):
    b=TB()
    for rg in t.regions:
        o=norm_rings(rg.outer,'cw'); n=norm_rings(rg.inner,'ccw')
        b.add_region((rg.data,o,n))
    return b.into_topology()
# clip
def test(mask,p):
    k,v=mask
    c=p[0] if k in('minx','maxx') else p[1]
    if c==v: return 'on'
    return 'in' if (c>=v if k.startswith('min') else c<=v) else 'out'
def quot(a,b):
    if b==0: raise P('division')
    if a==MIN and b==-1: raise P('division')
    q=abs(a)//abs(b)
    return q if (a>=0)==(b>=0) else -q
def inter(mask,p1,p2):
    k,v=mask
    if k in('minx','maxx'):
        y=i64(p1[1]+quot(i64(i64(v-p1[0])*i64(p2[1]-p1[1])),i64(p2[0]-p1[0])))
        return (v,y%2**32)
    x=i64(p1[0]+quot(i64(i64(v-p1[1])*i64(p2[0]-p1[0])),i64(p2[1]-p1[1])))
    return (x%2**32,v)
def clip_edge(pts,mask):
    if len(pts)<2: return []
    ret=[]
    pp=pts[0]; pl=test(mask,pp)
    if pl=='in': ret.append(pp)
    for p in pts[1:]:
        l=test(mask,p)
        if l=='on':
            if pl=='in': ret.append(p)
        elif l=='in':
            if pl=='out': ret.append(inter(mask,pp,p))
            if pl=='on':
                if not ret or ret[-1]!=pp: ret.append(pp)
            ret.append(p)
        else:
            if pl=='in': ret.append(inter(mask,pp,p))
        pp=p; pl=l
    return ret
def clip_topology(t,mask):
    finder={}; old=[]; new={}
    for e in t.edges:
        c=clip_edge(e.points,mask)
        if len(c)>=2:
            finder[id(e)]=len(old); old.append(c)
        else: finder[id(e)]=None
    first=len(old)
    def nbde(p1,p2):
        a,b,d=(p1,p2,'F') if p1<p2 else (p2,p1,'B')
        nid=first+len(new)
        if (a,b) not in new: new[(a,b)]=nid
        return (new[(a,b)],d)
    def fp(e,d): return e[0] if d=='F' else e[-1]
    def lp(e,d): return e[-1] if d=='F' else e[0]
    def clip_ring(r):
        ret=[]; area=0; sp=None; pv=None
        for de in r.des:
            if id(de.edge) not in finder: raise P('index')
            eid=finder[id(de.edge)]
            if eid is None: continue
            e=old[eid]
            if sp is None: sp=fp(e,de.direction)
            if pv is not None:
                es=fp(e,de.direction)
                if pv!=es:
                    area=i64(area+signed_area2([pv,es]))
                    ret.append(nbde(pv,es))
            ret.append((eid,de.direction))
            pv=lp(e,de.direction)
            area=i64(area+signed_area2(e if de.direction=='F' else e[::-1]))
        if sp is not None and pv is not None and sp!=pv:
            ret.append(nbde(pv,sp))
            area=i64(area+signed_area2([pv,sp]))
        return None if area==0 else ret
    def clip_rings(rs):
        out=[]
        for r in rs:
            x=clip_ring(r)
            if x is not None: out.append(x)
        return out
    regions=[]
    for rg in t.regions:
        o=clip_rings(rg.outer)
        if o:
            n=clip_rings(rg.inner)
            regions.append((rg.data,o,n))
    edges=[mk(points=c,rings=[None,None]) for c in old]
    slots=[None]*len(new)
    for k,i in new.items(): slots[i-first]=list(k)
    edges+=[mk(points=c,rings=[None,None]) for c in slots]
    return finish(edges,regions)
# simplify
def tri(a,b,c):
    x=i64(i64(b[0]*a[0])*i64(c[1]-a[1])); y=i64(i64(c[0]-a[0])*i64(b[1]-a[1]))
    v=i64(x-y)
    if v==MIN:
        if MODE=='debug': raise P('overflow')
        return 2**63
    return abs(v)
class Heap:
    def __init__(s,vec):
        n=len(vec)
        if not n>=2: raise P('assert')
        is_ring=vec[0]==vec[n-1]
        if not (not is_ring or n>=4): raise P('assert')
        s.points=[mk(geo=p,hi=0,w=0,next=None,prev=None) for p in vec]
        pt=s.points
        pt[0].w=2**64-1; pt[0].next=pt[1]
        pt[n-1].w=2**64-1; pt[n-1].prev=pt[n-2]
        for i in range(1,n-1):
            pt[i].w=tri(pt[i-1].geo,pt[i].geo,pt[i+1].geo)
            pt[i].next=pt[i+1]; pt[i].prev=pt[i-1]
        s.heap=pt[1:n-1]
        s.heapify()
    def heapify(s):
        n=len(s.heap)
        if n>1:
            st=usz(n-1-1)//2
            while True:
                s.down(st,n-1)
                if st==0: break
                st-=1
    def down(s,start,end):
        root=start
        while usz(2*root+1)<=end:
            child=2*root+1; sw=root
            if at(s.heap,start).w>at(s.heap,child).w: sw=child
            if usz(child+1)<=end and at(s.heap,sw).w>at(s.heap,child+1).w: sw=child+1
            if sw==root: return
            s.swap(root,sw); root=sw
    def up(s,start,end):
        child=end
        while child>start:
            par=(child-1)//2
            if at(s.heap,par).w>at(s.heap,child).w:
                s.swap(par,child); child=par
            else: return
    def swap(s,a,b):
        x=at(s.heap,a); y=at(s.heap,b)
        s.heap[a]=y; s.heap[b]=x
        s.heap[a].hi=a; s.heap[b].hi=b
    def pop(s):
        n=len(s.heap)
        if n<1: raise P('assert')
        if n==1: return s.heap.pop()
        top=s.heap[0]; last=s.heap.pop()
        s.heap[0]=last; last.hi=0
        s.down(0,n-2)
        if top.prev is None: raise P('nullDeref')
        top.prev.next=top.next
        if top.next is None: raise P('nullDeref')
        top.next.prev=top.prev
        return top
    def recalc(s,b):
        if b.prev is not None and b.next is not None:
            nw=tri(b.prev.geo,b.geo,b.next.geo)
            if nw<b.w:
                b.w=nw; s.up(0,b.hi)
            elif nw>b.w:
                b.w=nw; s.down(b.hi,usz(len(s.heap)-1))
    def vw(s,small):
        lw=0
        while len(s.heap)>0:
            p=s.pop()
            if p.w<lw: p.w=lw
            else:
                if p.w>=small: break
                lw=p.w
            if p.prev is not None: s.recalc(p.prev)
            if p.next is not None: s.recalc(p.next)
        ret=[p.geo for p in s.points if p.w>=small]
        is_ring=at(ret,0)==ret[-1]
        if is_ring and len(ret)<4:
            first=at(s.points,1); second=at(s.points,2); low=True
            if second.w>first.w:
                first,second=second,first; low=False
            for p in sl(s.points,3,len(s.points)-1):
                if p.w>first.w:
                    second=first; first=p; low=False
                elif p.w>second.w:
                    second=p; low=True
            p1,p2=(first,second) if low else (second,first)
            ret=[s.points[0].geo,p1.geo,p2.geo,s.points[-1].geo]
        return ret
def simplify_edge(pts,small): return Heap(list(pts)).vw(small)
def simplify(t,small):
    for e in t.edges: e.points=simplify_edge(e.points,small)
    return t
# printing
def show(t):
    eid={id(e):i for i,e in enumerate(t.edges)}
    rid={id(r):i for i,r in enumerate(t.regions)}
    rp={}
    for i,r in enumerate(t.regions):
        for j,x in enumerate(r.outer): rp[id(x)]=f"{i}o{j}"
        for j,x in enumerate(r.inner): rp[id(x)]=f"{i}i{j}"
    ring=lambda x:"["+" ".join(f"{eid[id(d.edge)]}{d.direction}" for d in x.des)+"]@"+str(rid[id(x.region)])
    o=[]
    for r in t.regions: o.append(f"R{r.data}:"+"".join(map(ring,r.outer))+"/"+"".join(map(ring,r.inner)))
    for e in t.edges:
        o.append("E"+" ".join(f"{x},{y}" for x,y in e.points)+"|"+"|".join('-' if x is None else rp[id(x)] for x in e.rings))
    return ";".join(o)
