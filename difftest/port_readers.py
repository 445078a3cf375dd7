"""Line-by-line port of src/read/shapefile of /repo/src, for files in memory and ASCII text."""
import struct,re,math
import port_geometry as port
from port_geometry import P,at,usz,ring_awo
class E(Exception): pass
class File:
    def __init__(s,b): s.b=b
    def read_exact(s,n):
        if n<=len(s.b):
            r=s.b[:n]; s.b=s.b[n:]; return r
        s.b=b''; raise E('IO')
def sl(b,i,j):
    if i>j or j>len(b): raise P('index')
    return b[i:j]
def u32le(b):
    if len(b)<4: raise P('index')
    return struct.unpack('<I',b[:4])[0]
def u32be(b): return struct.unpack('>I',b[:4])[0]
NAMES={0:'Null',1:'Point',3:'PolyLine',5:'Polygon',8:'MultiPoint',11:'PointZ',13:'PolyLineZ',15:'PolygonZ',18:'MultiPointZ',21:'PointM',23:'PolyLineM',25:'PolygonM',28:'MultiPointM',31:'MultiPatch'}
def pe(s): raise E('Parse error: '+s)
class Shp:
    def __init__(s,f):
        b=f.read_exact(100)
        magic=u32be(b[0:4]); fl=u32be(b[24:28]); ver=u32le(b[28:32]); st=u32le(b[32:36])
        s.bb=struct.unpack('<4d',b[36:68])
        if magic!=9994: pe(f"File has wrong magic number: found {magic}, expected 9994")
        if ver!=1000: pe(f"File has wrong version: found {ver}, expected 1000")
        if st not in NAMES: pe(f"File has nonexistent data type {st}")
        if st!=5: pe(f"File has unsupported type: found {NAMES[st]}, expected Polygon")
        n=fl*2
        if n>=2**32:
            if port.MODE=='debug': raise P('overflow')
            n%=2**32
        s.n=n; s.f=f; s.read=100
    def next(s):
        if s.read>=s.n: return None
        try:
            h=s.f.read_exact(8)
            rn=u32be(h[0:4]); cl=u32be(h[4:8])
            buf=s.f.read_exact(cl*2)
            r=parse(buf,rn)
        except E as e: return ('err',e.args[0])
        s.read+=8+len(buf)
        if s.read>s.n: return ('err',f"Parse error: The Shapefile header suggests the file is {s.n} bytes long, but it's longer than that.")
        return ('ok',r)
def parse(buf,rn):
    st=u32le(sl(buf,0,4))
    if st!=5: pe(f"Record number {rn} has unsupported shape type: found {st}, expected 5")
    np=u32le(sl(buf,36,40))
    if np==0: pe(f"Record number {rn} has no parts")
    nq=u32le(sl(buf,40,44))
    need=44+4*np+16*nq
    if need!=len(buf): pe(f"Record number {rn} needs {need} bytes (it has {np} parts and {nq} points), but the record header says it has {len(buf)} bytes")
    rest=buf[44+4*np:]
    pts=[(rest[i:i+8],rest[i+8:i+16]) for i in range(0,len(rest),16)]
    parts=[u32le(buf[44+4*i:48+4*i]) for i in range(np)]
    rings=[]
    for a,b in zip(parts,parts[1:]):
        if a>len(pts) or b>len(pts): pe(f"Record number {rn} has a ring with points {a}-{b}, but there are only {nq} points in the record")
        if a+3>b: pe(f"Record number {rn} has a ring with points {a}-{b}, but that's an invalid range")
        rings.append(pts[a:b])
    last=parts[-1]
    if last+3>=len(pts): pe(f"Record number {rn} has a ring starting at point {last}, but there are only {nq} points in the record")
    rings.append(pts[last:nq])
    return rings
def dec(b):
    if all(x<0x80 for x in b): return b.decode('ascii')
    return None
class Dbf:
    def __init__(s,f):
        b=f.read_exact(32)
        if b[2]>12 or b[3]>31: pe("The first four bytes of the file mention an invalid creation date. This is not a valid .dbf file.")
        s.nr=u32le(b[4:8]); nh=struct.unpack('<H',b[8:10])[0]; s.bpr=struct.unpack('<H',b[10:12])[0]
        if nh<32:
            if port.MODE=='debug': raise P('overflow')
            raise P('capacity')
        buf=f.read_exact(nh-32)
        s.fields=[]; off=1
        for i in range(0,len(buf),32):
            c=buf[i:i+32]
            if len(c)!=32: break
            k=c[0:11].find(b'\0')
            if k<0: k=11
            nm=dec(c[:k])
            if nm is None: pe("Field name is not valid ascii")
            s.fields.append((nm,c[11],off,c[16])); off+=c[16]
        s.f=f; s.it=0
    def next(s):
        if s.it==s.nr: return None
        s.it+=1
        try: return ('ok',s.f.read_exact(s.bpr))
        except E as e: return ('err',e.args[0])
def read_string(fd,rec):
    nm,ty,off,ln=fd
    b=sl(rec,off,off+ln)
    c=chr(ty)
    if c=='C':
        t=dec(b.rstrip(b' '))
        if t is None: raise E('Parse error: invalid sequence')
        return t
    if c in '+|': return str(u32le(b))
    if c=='N':
        m=re.fullmatch(rb' *(-?[0-9]+(?:\.[0-9]+)?)',b)
        if not m: pe('Bytes in numeric record do not represent a number')
        return m.group(1).decode()
    raise P('unimplemented')
def fdiv(a,b):
    if b==0:
        if a==0 or a!=a: return math.nan
        return math.copysign(math.inf,a)*math.copysign(1,b)
    return a/b
def asu32(v):
    if v!=v: return 0
    if v<=0: return 0
    if v>=2**32-1: return 2**32-1
    return int(v)
def quant(bb,p):
    x,y=struct.unpack('<d',p[0])[0],struct.unpack('<d',p[1])[0]
    w=bb[2]-bb[0]; h=bb[1]-bb[3]
    M=4294967295.0
    return (asu32(fdiv(x-bb[0],w)*M),asu32(fdiv(y-bb[3],h)*M))
def run(shp,dbf,n):
    out=[]
    try:
        ee=[]
        a=d=None
        try: a=Shp(File(shp))
        except E as e: ee.append(e.args[0])
        try: d=Dbf(File(dbf))
        except E as e: ee.append(e.args[0])
        if ee: return "E:"+ee[0]
        for _ in range(n):
            x=a.next(); y=d.next()
            if x is None and y is None: out.append('done'); break
            if y is None: out.append("E:Parse error: '.shp' file has more records than '.dbf' record"); continue
            if x is None: out.append("E:Parse error: '.dbf' file has more records than '.shp' record"); continue
            if x[0]=='err': out.append("E:"+x[1]); continue
            if y[0]=='err': out.append("E:"+y[1]); continue
            rings=x[1]; rec=y[1]
            o=[];i=[]
            for r in rings:
                q=[quant(a.bb,p) for p in r]
                (o if ring_awo(('p',q))[1]=='cw' else i).append(q)
            ps=lambda l:" ".join(f"{u},{v}" for u,v in l)
            fs=[]
            for fd in d.fields:
                try: fs.append(fd[0]+":"+read_string(fd,rec))
                except E as e: fs.append(fd[0]+":E"+e.args[0])
                except P as e: fs.append(fd[0]+":!"+e.args[0])
            out.append("|".join(map(ps,o))+"/"+"|".join(map(ps,i))+"/"+";".join(fs))
    except P as e: out.append('!'+e.args[0])
    return "#".join(out)
