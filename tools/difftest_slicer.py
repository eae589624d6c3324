import random,sys,itertools
M=1<<64
class P(Exception): pass
def run(prof,idx,cnt,cs,shp):
    D=len(idx); dbg=prof=='debug'
    stride=[1]*D
    for i in reversed(range(D-1)): stride[i]=stride[i+1]*cs[i+1]
    end=1
    for c in cnt: end*=c
    cprod=1
    for c in cs: cprod*=c
    off=0; oc=[0]*D; items=[]; seen=set()
    def sub(a,b):
        if a<b:
            if dbg: raise P()
            return (a-b)%M
        return a-b
    def mul(a,b):
        r=a*b
        if r>=M:
            if dbg: raise P()
            r%=M
        return r
    def add(a,b):
        r=a+b
        if r>=M:
            if dbg: raise P()
            r%=M
        return r
    try:
        while off<end:
            if (off,tuple(oc)) in seen: return None
            seen.add((off,tuple(oc)))
            start=[idx[i]+oc[i] for i in range(D)]
            co=[start[i]//cs[i]*cs[i] for i in range(D)]
            pos=sum((start[i]-co[i])*stride[i] for i in range(D))
            adv=0;carry=0;di=0
            for i in reversed(range(D)):
                c=cs[i]
                e=co[i]+c
                if e>shp[i]: c-=e-shp[i]
                di+=1
                if c==1 and stride[i]!=1:
                    oc[i]+=carry; carry=oc[i]//cnt[i]; oc[i]%=cnt[i]; continue
                oc[i]+=carry; carry=oc[i]//cnt[i]; oc[i]%=cnt[i]
                cur=oc[i]
                cce=sub(co[i]+c,idx[i])
                oc[i]=min(cnt[i],cce)
                diff=mul(sub(oc[i],cur),stride[i])
                adv=add(adv,diff); off=add(off,diff)
                carry+=oc[i]//cnt[i]; oc[i]%=cnt[i]
                if idx[i]==co[i] and cnt[i]==cce and off<end: continue
                if dbg and not off<=end: raise P()
                break
            for i in reversed(range(D-di)):
                oc[i]+=carry; carry=oc[i]//cnt[i]; oc[i]%=cnt[i]
                if carry==0: break
            if dbg and adv==0: raise P()
            ce=add(pos,adv)
            if dbg and ce>cprod: raise P()
            items.append((co,pos,ce))
        return items,'ok'
    except P:
        return items,'panic'
random.seed(int(sys.argv[1])); N=int(sys.argv[2])
out=[]
while len(out)<N:
    D=random.choice([1,2,3,4,5])
    shp=[random.randint(1,5) for _ in range(D)]
    cs=[random.choice([1,1,2,3,4,5,6]) for _ in range(D)]
    idx=[];cnt=[]
    for i,s in enumerate(shp):
        r=random.random()
        if r<.4: a=random.randrange(s); n=random.randint(1,s-a)
        elif r<.7: a=random.randrange(s)//cs[i]*cs[i]; n=min(cs[i],s-a)
        else: a=0;n=s
        idx.append(a);cnt.append(n)
    prof=random.choice(['debug','release'])
    r=run(prof,idx,cnt,cs,shp)
    if r is None: continue
    its,e=r
    enc=' '.join(f"{co}:{a}:{b}" for co,a,b in its)+' '+e
    grid=[[k*cs[i] for k in range(-(-shp[i]//cs[i]))] for i in range(D)]
    chunks=','.join(f"⟨{10*n},1,{list(t)}⟩" for n,t in enumerate(itertools.product(*grid)))
    ext=','.join(f".sliceCount {a} {b}" for a,b in zip(idx,cnt))
    out.append(f'({"." + prof}, {shp}, {cs}, ([{chunks}] : List Chunk), ([{ext}] : List Extent), "{enc}")')
print("import Verif.Model.Dataset\nopen Hidefix Outcome")
print('''def fmt (t : Outcome (Trace Item)) : String := match t with
  | .ok t => String.join (t.items.map fun it => s!"{it.chunk.offset}:{it.start}:{it.stop} ") ++ (if t.items.isEmpty then " " else "") ++
     (match t.ending with | .ok _ => "ok" | .panic _ => "panic" | .diverge => "div" | _ => "other")
  | _ => "bad"
def check (c : Profile × List Nat × List Nat × List Chunk × List Extent × String) : Option String :=
  let (p, shp, cs, ch, ext, e) := c
  match Dataset.new p (.uint 1) .LE shp ch cs false none with
  | .ok ds => let r := fmt (ds.chunkSlices p (.extent ext)); if r == e then none else some s!"{shp} {cs} got {r} exp {e}"
  | _ => some "new"
''')
B=25
for k in range(0,N,B):
    print(f"def cases{k} : List (Profile × List Nat × List Nat × List Chunk × List Extent × String) := [\n"+',\n'.join(out[k:k+B])+"]")
    print(f"#eval (cases{k}.filterMap check)")
