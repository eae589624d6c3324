"""Which functions of /repo are cited by which definitions of the model. Prints a markdown table."""
import re,glob,os,collections
R='/repo/'
files=sorted(glob.glob(R+'src/**/*.rs',recursive=True))+[R+'python/hidefix/xarray.py']
fns=[]
for f in files:
    L=open(f).read().split('\n'); rel=f[len(R):]
    end=len(L); intest=False
    for i,l in enumerate(L,1):
        if re.match(r'\s*mod tests?\b',l) or '#[cfg(test)]' in l: intest=True
        if intest and rel!='src/idx/dataset.rs' : 
            if rel.endswith('.rs'): continue
        m=re.match(r'\s*(?:pub(?:\([a-z]+\))? )?(?:async )?(?:unsafe )?fn (\w+)|\s*def (\w+)',l)
        if m: fns.append([rel,i,m.group(1) or m.group(2)])
# function extents: by brace matching (rust) / indentation (python)
def extent(rel,i):
    L=open(R+rel).read().split('\n')
    if rel.endswith('.py'):
        ind=len(L[i-1])-len(L[i-1].lstrip()); j=i
        while j<len(L) and (not L[j].strip() or len(L[j])-len(L[j].lstrip())>ind): j+=1
        return j
    d=0; seen=False
    for j in range(i-1,len(L)):
        for ch in L[j]:
            if ch=='{': d+=1; seen=True
            if ch=='}': d-=1
            if ch==';' and not seen and d==0: 
                # trait method without body
                if re.search(r';\s*$',L[j]): return j+1
        if seen and d==0: return j+1
    return len(L)
cites=[] # rel,a,b,module,defname
for m in sorted(glob.glob('/verif/lean/Verif/Model/*.lean')):
    s=open(m).read(); mod=os.path.basename(m)[:-5]
    for dm in re.finditer(r'/--(.*?)-/\s*(?:@\[[^\]]*\]\s*)?(?:private )?(?:def|structure|inductive|abbrev)\s+(\S+)',s,re.S):
        txt,name=dm.group(1),dm.group(2)
        txt=re.sub(r'\s+',' ',txt)
        cur=None
        for tk in re.finditer(r'((?:src|python)/[\w/\.]+?\.(?:rs|py))|(?<![\w\^.])(\d{1,3})(?:-(\d{0,3}))?(?![\w^.])',txt):
            if tk.group(1): cur=tk.group(1)
            elif cur:
                a=int(tk.group(2)); b=int(tk.group(3) or a)
                if (txt[tk.start()-1] in ':( ,'): cites.append((cur,a,b if tk.group(3)!='' else a+12,mod,name))
tot=cov=0; unc=[]
by=collections.OrderedDict()
for rel,i,n in fns:
    j=extent(rel,i); tot+=1
    hit=[(mo,d) for (r,a,b,mo,d) in cites if r==rel and a<=j and b>=i]
    if hit: cov+=1
    by.setdefault(rel,[]).append((i,j,n,sorted(set(f'{mo}.{d}' for mo,d in hit))))
def why(rel,i,n):
    if rel=='src/idx/dataset.rs': return 'test'
    if n=='read_flexbuffer': return 'above the bytes: `Index.ofTree`; the bytes are a parameter'
    if rel=='src/extent.rs':
        if n=='next_back': return 'not used in the crate'
        return 'the same conversion for a reference: clones and forwards'
    if rel=='src/filters/byteorder.rs': return 'trait declaration; the implementations are modelled'
    if rel=='src/idx.rs': return 'trait declaration / forwards to `TryFrom` (`Entry`)'
    if rel=='src/idx/chunk.rs': return 'constructor, a view of one field, `partial_cmp = Some(cmp)`'
    if n in ('__repr__','hidefix'): return 'printing; module set-up'
    if n=='read_ndarray': return 'not called from anywhere'
    if rel=='src/python.rs': return 'forwards to `dataset`'
    if rel.endswith('xarray.py'): return 'plumbing of xarray and netCDF4 (attributes, dimensions, encodings), no hidefix call beyond `Index(path)`'
    if n in ('stream','stream_xdr','read_to','read_to_par'): return 'trait declaration; the implementations are modelled'
    return 'accessor: a field, or a forwarder to the method of the same name (trait declaration or `enum` dispatch)'
out=open('/verif/COVERAGE.md','w')
def pr(x): out.write(x+'\n')
pr('# Functions of /repo and the model definitions that cite them\n\nGenerated by `tools/coverage.py` from the comments of `lean/Verif/Model/*.lean`. Tests are left out.\n')
pr('| function | | model definitions, or why there is none |\n|---|---|---|')
ex=0
for rel in by:
    if rel=='src/idx/dataset.rs': tot-=len(by[rel]); continue
    for i,j,n,h in by[rel]:
        pr(f"| `{rel}:{i}` | `{n}` | {', '.join('`'+x+'`' for x in h[:6]) + (' …' if len(h)>6 else '') if h else '— '+why(rel,i,n)} |")
pr(f'\n{cov} of {tot} functions are modelled; the others have the reason given.')
