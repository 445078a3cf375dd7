"""Usage: compare_readers.py SEED COUNT. See README.md."""
import math,os,random,shutil,struct,subprocess,sys,tempfile
import port_geometry as port
import port_readers as port2
HERE=os.path.dirname(os.path.abspath(__file__))
TMP=tempfile.mkdtemp()
def run_model(script,cases):
    shutil.copy(os.path.join(HERE,script),os.path.join(TMP,'run.lean'))
    return subprocess.run(['lake','env','lean','--run',os.path.join(TMP,'run.lean'),cases],cwd=os.path.join(HERE,'..','lean'),capture_output=True,text=True)

seed=int(sys.argv[1]); N=int(sys.argv[2]); rnd=random.Random(seed)
def fl(bb):
    z=rnd.random()
    if z<.85: return rnd.uniform(min(bb[0],bb[2]),max(bb[0],bb[2]))
    if z<.9: return rnd.choice([0.0,-0.0,math.inf,-math.inf,math.nan,1e308,-1e308,5e-324,bb[0],bb[3]])
    if z<.95: return struct.unpack('<d',struct.pack('<Q',rnd.getrandbits(64)))[0]
    return rnd.choice(bb)
def mkshp():
    mag=rnd.choice([1,1,100,1e-300,1e300,360])
    bb=sorted(rnd.uniform(-mag,mag) for _ in range(2)); bb2=sorted(rnd.uniform(-mag,mag) for _ in range(2))
    bb=[bb[0],bb2[0],bb[1],bb2[1]]
    if rnd.random()<.1: bb=[rnd.choice([0.0,1.0,math.inf,math.nan,1e308,-1e308]) for _ in range(4)]
    recs=b''
    nrec=rnd.randrange(0,4)
    for i in range(nrec):
        np=rnd.choice([1,1,2,3,0]) if rnd.random()<.5 else rnd.choice([1,2])
        sizes=[rnd.choice([4,4,5,6,3,2,8]) for _ in range(max(np,1))]
        starts=[sum(sizes[:k]) for k in range(np)]
        if rnd.random()<.1 and starts: starts[rnd.randrange(len(starts))]=rnd.choice([0,1,100,2**32-1,3])
        pts=b''
        for s in sizes:
            r=[(fl(bb),fl([bb[1]]*2+[bb[3]]*2)) for _ in range(s-1)]
            r.append(r[0] if r else (0.,0.))
            if rnd.random()<.5: r.reverse()
            for p in r: pts+=struct.pack('<dd',*p)
        npts=sum(sizes)
        if rnd.random()<.05: npts+=rnd.choice([1,-1])
        body=struct.pack('<I',5 if rnd.random()<.95 else rnd.randrange(9))+b'\0'*32+struct.pack('<II',np,max(0,npts))+b''.join(struct.pack('<I',x) for x in starts)+pts
        if rnd.random()<.05: body=body[:rnd.randrange(0,len(body)//2)*2]
        cl=len(body)//2
        if rnd.random()<.04: cl=max(0,cl+rnd.choice([-1,1,-20,5]))
        recs+=struct.pack('>II',i+1,cl)+body
    tot=(100+len(recs))//2
    if rnd.random()<.1: tot=rnd.choice([0,50,51,tot+1,tot-1,tot+100,2**31,2**31+tot,2**32-1])
    h=bytearray(100)
    struct.pack_into('>I',h,0,9994 if rnd.random()<.97 else 9)
    struct.pack_into('>I',h,24,tot); struct.pack_into('<I',h,28,1000 if rnd.random()<.97 else 1)
    struct.pack_into('<I',h,32,5 if rnd.random()<.95 else rnd.randrange(35)); struct.pack_into('<4d',h,36,*bb)
    b=bytes(h)+recs
    if rnd.random()<.05: b=b[:rnd.randrange(len(b)+1)]
    return b,nrec
def mkdbf(nrec):
    nf=rnd.randrange(0,4); fs=b''; body=[]; tys=[]
    for i in range(nf):
        nm=bytes(rnd.choice(b'abcXYZ09_ ') for _ in range(rnd.randrange(0,12)))[:11]
        if rnd.random()<.03: nm=b'\xff'+nm[1:]
        ty=rnd.choice(b'CCCCNNN+|LDF@Oz'); ln=rnd.randrange(0,9) if chr(ty) not in '+|' or rnd.random()<.3 else 4
        d=bytearray(32); d[0:len(nm)]=nm
        d[11]=ty; d[16]=ln; fs+=bytes(d); tys.append((chr(ty),ln))
    fs+=rnd.choice([b'\r',b'\r\0',b'',b'\r'+b'x'*rnd.randrange(40)])
    bpr=1+sum(l for _,l in tys)
    if rnd.random()<.1: bpr=max(0,bpr+rnd.choice([-1,1,3,-bpr]))
    n=nrec if rnd.random()<.85 else rnd.randrange(0,5)
    recs=b''
    for i in range(n):
        r=b' '
        for t,l in tys:
            if t=='N':
                s=rnd.choice(['%d'%rnd.randrange(-99,9999),'%.2f'%rnd.uniform(-99,99),'','-','1.','.5','1 ','+1','1.5.2','--1','x','1\n','12'])
                v=s.rjust(l)[:l].encode()
            else: v=bytes(rnd.choice(b'abc  xyz') for _ in range(l))
            if rnd.random()<.05 and l: v=b'\x80'+v[1:]
            r+=v.ljust(l)
        r=(r+b'??????????')[:bpr]
        recs+=r
    h=bytearray(32); h[0]=3; h[1]=rnd.randrange(256); h[2]=rnd.randrange(13) if rnd.random()<.97 else rnd.randrange(256); h[3]=rnd.randrange(32) if rnd.random()<.97 else rnd.randrange(256)
    nh=32+len(fs)
    if rnd.random()<.05: nh=rnd.choice([0,31,32,nh+1,nh-1,33,64])
    struct.pack_into('<IHH',h,4,n if rnd.random()<.95 else n+1,max(0,nh),bpr)
    b=bytes(h)+fs+recs
    if rnd.random()<.05: b=b[:rnd.randrange(len(b)+1)]
    return b
cases=[]
for _ in range(N):
    s,n=mkshp(); cases.append((rnd.randrange(2),s,mkdbf(n)))
f=os.path.join(TMP,'cases.txt')
open(f,'w').write("\n".join(f"{m} {s.hex()} {d.hex()}" for m,s,d in cases))
exp=[]
for m,s,d in cases:
    port.MODE='debug' if m==0 else 'release'; exp.append(port2.run(s,d,8).replace('\n','\\n').replace('\r','\\r'))
r=run_model('run_readers.lean.txt',f)
got=r.stdout.split("\n")[:-1]
if r.stderr or r.returncode: print(r.returncode,r.stderr[:800])
print(len(exp),len(got))
bad=0
from collections import Counter
st=Counter()
for c,e,g in zip(cases,exp,got):
    for q in e.split('#'):
        st[q[:24] if q[:1] in 'E!d' else ('rec')]+=1
    if e!=g:
        bad+=1
        if bad<4: print("DIFF\n  py",e,"\n  ln",g)
print("bad",bad); print(st.most_common(40))
