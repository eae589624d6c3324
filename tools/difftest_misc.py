# Differential test of the model: request coalescing (src/reader/s3.rs:74-106), start/count of a
# selection (src/extent.rs:343-461), Python indexing (src/python.rs:189-222, with CPython's own
# slice.indices), unshuffle (src/filters/shuffle.rs). Prints a Lean file; every batch must show [].
import random,sys
random.seed(int(sys.argv[1])); N=int(sys.argv[2])
M=1<<64; GAP=32*1024; MAX=8*1024*1024
class P(Exception): pass
def group(prof,g):
    dbg=prof=='debug'
    def add(a,b):
        if a+b>=M:
            if dbg: raise P()
        return (a+b)%M
    def sub(a,b):
        if a<b and dbg: raise P()
        return (a-b)%M
    out=[]
    try:
        for (addr,sz,cur,s,e) in g:
            if out and out[-1][2][-1][0]==addr: out[-1][2][-1][1].append((cur,s,e)); continue
            if out:
                r=out[-1]
                if addr>=r[1] and addr-r[1]<=GAP and sub(add(addr,sz),r[0])<=MAX:
                    r[1]=add(addr,sz); r[2].append((addr,[(cur,s,e)])); continue
            out.append([addr,add(addr,sz),[(addr,[(cur,s,e)])]])
    except P: return 'panic'
    return ';'.join(f"{a}-{b}:"+','.join(f"{c}="+'/'.join(f"{x}.{y}.{z}" for x,y,z in l) for c,l in ch) for a,b,ch in out)
def gcase():
    prof=random.choice(['debug','release']); g=[]; a=random.choice([0,100,M-20000,M-5])
    if a>M-100000 and random.random()<.5: a=M-3*MAX
    for _ in range(random.randint(0,7)):
        sz=random.choice([0,1,500,MAX,MAX-1000,1000])
        for _ in range(random.choice([1,1,1,2,3])): g.append((a%M,sz,random.randint(0,9),random.randint(0,9),random.randint(0,9)))
        a=a+sz+random.choice([0,0,1,GAP,GAP+1,-1,-600,3]); a=max(a,0)
    e=group(prof,g)
    gl=','.join(f"⟨⟨{x},{s},[0]⟩,{c},{b},{t}⟩" for x,s,c,b,t in g)
    return f'(.{prof}, ([{gl}] : List GItem), "{e}")'
def count(a,b): return b-a if a<b else 0
def ecase():
    n=random.randint(0,4); dims=[random.choice([0,1,5,9]) for _ in range(n)]
    def one():
        k=random.choice('SECI'); a=random.randint(0,9); b=random.randint(0,9)
        return (k,a,b)
    if random.random()<.15: ex=None
    else: ex=[one() for _ in range(n if random.random()<.8 else random.randint(0,4))]
    if ex is None: e=f"{[0]*n}|{dims}"; l=".all"
    else:
        l=".extent ["+','.join({'S':f".slice {a}",'E':f".sliceEnd {a} {b}",'C':f".sliceCount {a} {b}",'I':f".index {a}"}[k] for k,a,b in ex)+"]"
        if len(ex)!=n: e='err'
        else:
            st=[a for k,a,b in ex]; ct=[{'S':count(a,d),'E':count(a,b),'C':b,'I':1}[k] for (k,a,b),d in zip(ex,dims)]
            e=f"{st}|{ct}"
    return f'(({l} : Extents), ({dims} : List Nat), "{e}")'
def pcase():
    n=random.randint(0,3); dims=[random.choice([0,1,5,9]) for _ in range(n)]
    def v(): return random.choice([None,random.randint(-12,12)])
    items=[]
    for _ in range(random.randint(0,4)):
        r=random.random()
        if r<.45: items.append(random.choice([random.randint(-12,12),2**63-1,-2**63,2**63]) if random.random()<.3 else random.randint(-12,12))
        else: items.append(slice(v(),v(),random.choice([None,1,1,1,2])))
    prof=random.choice(['debug','release'])
    # lazily, element by element, as the iterator chain does; zip pulls the item first, then the shape
    def go():
        idx=[];cnt=[];st=[]
        it=iter(items); sh=iter(dims)
        for el in it:
            if isinstance(el,int):
                if not -2**63<=el<2**63: return 'panic'
                if el==2**63-1:
                    if prof=='debug': return 'panic'
                    nx=-2**63
                else: nx=el+1
                el=slice(el,nx,1)
            try: d=next(sh)
            except StopIteration: break
            a,b,s=el.indices(d)
            idx.append(a%M); cnt.append((b-a)%M); st.append(s)
        k=len(cnt)
        idx+= [0]*(n-len(idx)); st+=[1]*(n-len(st)); cnt+=dims[k:]
        if any(x!=1 for x in st): return 'panic'
        return f"{idx}|{cnt}"
    e=go()
    def o(x): return 'none' if x is None else f"(some ({x}))"
    il=','.join(f".int ({x})" if isinstance(x,int) else f".slice {o(x.start)} {o(x.stop)} {o(x.step)}" for x in items)
    return f'(.{prof}, ([{il}] : List PyItem), ({dims} : List Nat), "{e}")'
def ucase():
    sz=random.choice([1,2,4,8,1,2,4,8,3,5,16]); n=random.randint(0,6)*sz+(random.randint(0,sz-1) if random.random()<.2 else 0)
    src=[random.randint(0,255) for _ in range(n)]
    if sz not in (1,2,4,8): e=None
    elif sz==1: e=src
    elif n%sz: e=None
    else:
        w=n//sz; e=[0]*n
        for i in range(sz):
            for j in range(w): e[j*sz+i]=src[i*w+j]
    return f'(({src} : List Byte), ({sz} : Nat), "{e if e is not None else "fail"}")'
print("import Verif.Model.S3\nimport Verif.Model.Extent\nimport Verif.Model.Python\nimport Verif.Model.Filters\nopen Hidefix Outcome")
print('''def sep (s : String) (l : List String) : String := s.intercalate l
def fg (x : Outcome (List Request)) : String := match x with
  | .ok l => sep ";" (l.map fun r => s!"{r.start}-{r.stop}:" ++ sep "," (r.chunks.map fun c => s!"{c.1.addr}=" ++ sep "/" (c.2.map fun t => s!"{t.current}.{t.start}.{t.stop}")))
  | .panic _ => "panic" | _ => "bad"
def fe (x : Outcome (List Nat × List Nat)) : String := match x with
  | .ok (a, b) => s!"{a}|{b}" | .err _ => "err" | .panic _ => "panic" | _ => "bad"
def fu (x : Outcome (List Byte)) : String := match x with
  | .ok l => s!"{l.map UInt8.toNat}" | _ => "fail"
def ck (r e : String) : Option String := if r == e then none else some s!"got {r} exp {e}"
''')
def batch(nm,ty,gen,fn):
    for k in range(0,N,50):
        print(f"def {nm}{k} : List ({ty}) := [\n"+',\n'.join(gen() for _ in range(50))+"]")
        print(f"#eval ({nm}{k}.filterMap fun c => {fn})")
batch('g','Profile × List GItem × String',gcase,'ck (fg (groupRequests c.1 c.2.1)) c.2.2')
batch('e','Extents × List Nat × String',ecase,'ck (fe (c.1.getStartCount c.2.1)) c.2.2')
batch('p','Profile × List PyItem × List Nat × String',pcase,'ck (fe (pySelect c.1 c.2.1 c.2.2.1)) c.2.2.2')
batch('u','List Byte × Nat × String',ucase,'ck (fu (unshuffleSized c.1 c.2.1)) c.2.2')
