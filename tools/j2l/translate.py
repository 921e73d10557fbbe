"""Generates lean/Verif/Gen/*.lean from the sources in /repo.  Usage: translate.py [outdir] [repo]"""
import sys,os,re,copy
sys.path.insert(0,os.path.dirname(os.path.abspath(__file__)))
from javaparse import Parser,template
from gen import Gen,Unsupported,strip,walk
from prims import Prims
REPO=sys.argv[2] if len(sys.argv)>2 else '/repo'
OUT=sys.argv[1] if len(sys.argv)>1 else os.path.join(os.path.dirname(os.path.abspath(__file__)),'../../lean/Verif/Gen')
J=REPO+'/collections/src/main/java/com/bytefacets/collections/'
T=REPO+'/collections/src/main/templates/com/bytefacets/collections/'

def typ(p,n,t): return {p+'.name':n,p+'.javaType':t,p+'.arrayType':t,p+'.cast':'',p+'.declaration':''}
REF='type.name == "Generic" || type.name == "String"'
FK='key.name == "Double" || key.name == "Float" || key.name == "String" || key.name == "Generic"'
COND={'type.generic':False,'generics != ""':False,'key.generic || value.generic':False,REF:'ref',FK:True,FK.replace('key.','type.'):True}
def load(path,subst=None):
    src=open(path).read()
    if path.endswith('.ftl'): src=template(src,dict({'generics':''},**subst),COND)
    return [c for c in Parser(src).unit() if c][0]

def dfl(g,arr):
    """what new cells of an array of this Java type hold"""
    return g.dflt(arr[:-2] if arr.endswith('[]') else arr)

def external(g,e,q,n,a):
    qn=q[2] if q is not None and q[0]=='name' and q[2] not in g.locals and q[2] not in g.fields else None
    if qn=='Math' and n in('min','max'):
        (x,_),(y,_)=g.args(a); return f'({n} {g.at(x)} {g.at(y)})','int'
    if qn=='Integer' and n=='numberOfLeadingZeros':
        x,_=g.ex(a[0]); return f'(numberOfLeadingZeros {g.at(x)})','int'
    if qn=='Long' and n=='numberOfTrailingZeros':
        x,_=g.ex(a[0]); return f'(numberOfTrailingZeros {g.at(x)})','int'
    if qn=='System' and n=='arraycopy':
        vs=g.args(a); r,_=g.bind('arraycopy '+' '.join(g.at(v) for v,_ in vs),''); g.store(strip(a[2]),r); return '()','void'
    if qn=='Arrays' and n=='copyOf':
        (x,t),(y,_)=g.args(a); return g.bind(f'copyOf {g.at(x)} {g.at(y)} {dfl(g,t)}',t)
    if qn=='Arrays' and n=='fill' and len(a)==4:
        vs=[v for v,_ in g.args(a)]
        r,_=g.bind(f'arraysFill {g.at(vs[0])} {g.at(vs[1])} {g.at(vs[2])} {g.at(vs[3])}',''); g.store(strip(a[0]),r); return '()','void'
    if qn=='Objects' and n=='requireNonNull': return g.ex(a[0])
    if qn=='NumUtils' and n=='nextPowerOf2':
        x,_=g.ex(a[0]); return g.bind(f'Gen.NumUtils.nextPowerOf2 {g.at(x)}','int')
    if n=='calculateNewCapacity' and len(a)==3:
        vs=g.args(a[1:]); return g.bind('Gen.CapacityCalculator.calculateNewCapacity '+' '.join(g.at(v) for v,_ in vs),'int')
    if qn=='RangeCheckException' and n=='assertWithinRange':
        vs=g.args(a[:3]); g.ln('Gen.RangeCheckException.assertWithinRange '+' '.join(g.at(v) for v,_ in vs)); g.effect(); return '()','void'
    if qn=='InitializationException' and n=='assertMinimum':
        vs=g.args(a[:2]); g.ln('Gen.InitializationException.assertMinimum '+' '.join(g.at(v) for v,_ in vs)); g.effect(); return '()','void'
    if qn and qn.endswith('Array'):
        el={'Int':'int','Elem':'elem','Key':'key_t','Value':'value_t','Long':'long'}[qn[:-5]]
        d=g.dflt(el)
        if n=='fill':
            vs=[g.dflt('null') if v=='NULL' else v for v,_ in g.args(a)]
            f='fillAll' if len(a)==2 else 'fill'
            r,_=g.bind(f"{f} {' '.join(g.at(v) for v in vs)}",''); g.store(strip(a[0]),r); return '()','void'
        vs=[g.at(v) for v,_ in g.args(a)]
        if n=='create':
            return g.bind(f'newArr {vs[0]} {vs[1] if len(vs)>1 else d}',el+'[]')
        if n in('copyOf','ensureSize','ensureEntry'):
            dd=vs[2] if len(vs)>2 else d
            nn={'copyOf':'Verif.copyOf','ensureSize':'Verif.ensureSize','ensureEntry':'Verif.ensureEntry'}[n]
            return g.bind(f'{nn} {vs[0]} {vs[1]} {dd}',el+'[]')
    x=g.cfg.get('external2')
    return x(g,e,q,n,a) if x else None

HEAD="""/-!
GENERATED by tools/j2l/translate.py from {src}.  Do not edit: the translator is the only
reading of the Java text here.  Lean/Verif/Link proves that these definitions agree with the model.
-/
"""
def emit(name,imports,src,ns,body,opens=''):
    os.makedirs(OUT,exist_ok=True)
    text=''.join(f'import {i}\n' for i in imports)+HEAD.format(src=src)+f'set_option linter.unusedVariables false\nnamespace Verif.Gen.{ns}\nopen Verif{opens}\n\n'+'\n'.join(body)+f'end Verif.Gen.{ns}\n'
    open(f'{OUT}/{name}.lean','w').write(text)

def run(g,ms,srcs):
    out=[]
    for m in g.order_methods(ms):
        if g.names[id(m)] in g.skip: continue
        out+=g.method(m,srcs[m.cls])
    return out

def effectful(body,ns,asks=('hashE','eqE'),st=('Index K V','IndexObs σ K V'),bind=('{K V : Type} [Inhabited K] [Inhabited V]','{σ K V : Type} [Inhabited K] [Inhabited V] (eff : Effects σ K)'),arg=' eff',through=()):
    """The translated methods in which an effect `hashE` or `eqE` (`asks`) happens (directly or in a method they call), as
    programs on a collection and the state its functions act on: everything else they do is lifted."""
    import re
    defs=[];cur=None
    for l in '\n'.join(body).split('\n'):
        if l.startswith('/--'): cur=[l]; defs.append(cur)
        elif cur is not None: cur.append(l)
    name=lambda d:re.match(r'def (\w+)',d[1]).group(1)
    names={name(d) for d in defs}
    calls={name(d):{w for l in d[2:] for w in re.findall(r'\w+',l)} for d in defs}
    ask={n for n in names if calls[n]&set(asks)}
    while True:
        more={n for n in names-ask if calls[n]&ask}
        if not more: break
        ask|=more
    def prog(x):
        h=x.split()[0]
        if h in('pure','JM.throw')+tuple(asks) or h.startswith('(') or h=='if': return x
        if h in ask: return f'{h}{arg}'+x[len(h):]
        if h in names: x=f'{ns}.{x}'
        if h in through: return x
        return 'lift get' if x=='get' else f'lift ({x})'
    out=[]
    for d in defs:
        if name(d) not in ask: continue
        for i,l in enumerate(d):
            ind=l[:len(l)-len(l.lstrip())]; x=l.strip()
            if i==0 or not x: out.append(l); continue
            l=l.replace(f'JM ({st[0]})',f'JM ({st[1]})')
            if x.startswith('def '): out.append(l.replace(bind[0],bind[1],1)); continue
            if x.startswith(('Nat →','| ','else','match','if ','(if ')) or re.match(r'let \w+( : [^=]*)? :=',x): out.append(l); continue
            m=re.match(r'let (\w+|\(\w+, \w+\)) ← (.*)',x)
            out.append(ind+(f'let {m.group(1)} ← {prog(m.group(2))}' if m else prog(x)))
    return out

def walks(name,src,body,st,bind):
    """The methods that take a consumer, once more, for consumers with a state of their own."""
    emit(name+'Walk',[f'Verif.Gen.{name}','Verif.Model.Walk'],src+' (consumers with a state of their own)',name+'Walk',
        effectful(body,name,('consumer',),(st,f'Beside σ ({st})'),(bind,bind.replace('{','{σ ',1)),''),' Verif.Walk')

def ctors(g,cs,src,binders=' (hash : K → BitVec 32) (eq : K → K → Bool)',ctx=['hash','eq']):
    """all constructors of the class chain, as methods; field initialisers run after the super call"""
    ms=[]
    for i,c in enumerate(cs):
        fi=[('expr',f.line,('assign',f.line,'',('field',f.line,('this',f.line),f.name),f.init)) for f in c.fields if not f.static and f.init is not None]
        for m in c.ctors:
            b=list(m.body); first=strip(b[0][2]) if b and b[0][0]=='expr' else None
            if first and first[0]=='call' and first[2] is None and first[3] in('this','super'):
                tgt=c if first[3]=='this' else cs[i+1]
                call=[('expr',first[1],('call',first[1],None,f'init_{tgt.name}_{len(first[4])}',first[4]))]
                b=call+(fi if first[3]=='super' else [])+b[1:]
            else: b=fi+b
            m.body=b; m.name=f'init_{c.name}_{len(m.params)}'; m.cls=c.name; m.ret='void'
            g.meth[(m.name,len(m.params))]=[m]
            g.names[id(m)]=m.name if i else f'init{len(m.params)}'
            ms.append(m)
    sv=g.cfg['binders'],g.cfg['ctxargs']
    g.cfg['binders']+=binders; g.cfg['ctxargs']=ctx
    out=run(g,ms,src)
    g.cfg['binders'],g.cfg['ctxargs']=sv
    return out

MAXC={'MAX_CAPACITY':('MAX_CAPACITY','int'),'Integer.MAX_VALUE':('MAX_INT','int')}
def main():
    # ---- static helpers
    c=load(J+'NumUtils.java')
    g=Gen(dict(binders='{σ : Type}',state='σ',types={},external=external),[c])
    emit('NumUtils',['Verif.Gen.Prelude'],'NumUtils.java','NumUtils',run(g,c.methods,{'NumUtils':'NumUtils.java'}))
    c=load(J+'CapacityCalculator.java')
    g=Gen(dict(binders='{σ : Type}',state='σ',types={},external=lambda g,e,q,n,a:None if n=='calculateNewCapacity' else external(g,e,q,n,a),dropparams=lambda m:{'owner'},consts={'Integer.MAX_VALUE':('MAX_INT','int')}),[c])
    emit('CapacityCalculator',['Verif.Gen.Prelude'],'CapacityCalculator.java','CapacityCalculator',run(g,c.methods,{'CapacityCalculator':'CapacityCalculator.java'}))
    for n in('RangeCheckException','InitializationException'):
        c=load(J+f'exception/{n}.java')
        g=Gen(dict(binders='{σ : Type}',state='σ',types={},external=lambda g,e,q,n,a:None,dropparams=lambda m:{'field'}),[c])
        emit(n,['Verif.Gen.Prelude'],n+'.java',n,run(g,c.methods,{n:n+'.java'}))
    # ---- arrays
    c=load(T+'arrays/KeyArray.ftl',typ('type','Elem','elem'))
    def xarr(g,e,q,n,a):
        if n=='areEqual': (x,_),(y,_)=g.args(a); return f'(isEq {g.at(x)} {g.at(y)})','boolean'
        if q is None: return None
        return external(g,e,q,n,a)
    g=Gen(dict(binders='{σ α : Type} (d : α) (isEq : α → α → Bool)',ctxargs=['d','isEq'],state='σ',types={'elem':'α'},defaults={'elem':'d','null':'d'},consts={'ElemType.DEFAULT':('d','elem')},external=xarr),[c])
    emit('KeyArray',['Verif.Gen.Prelude'],'arrays/KeyArray.ftl','KeyArray',run(g,c.methods,{'ElemArray':'KeyArray.ftl'}))
    # the same template for a generic element type: casts are dropped, `T` and `Object` are the element type, and the
    # factory that takes a `Class` (Array.newInstance) is left out
    src=template(open(T+'arrays/KeyArray.ftl').read(),dict({'generics':''},**typ('type','Generic','T')),dict(COND,**{'type.generic':True}))
    src=re.sub(r'public static <T> T\[\] create\(final Class<T> type.*?\n    \}',lambda m:'\n'*m.group().count('\n'),src,flags=re.S)
    src=re.sub(r'<T>|\(T\[\]\)','',src); src=re.sub(r'\b(T|Object)\b','elem',src)
    c=[c for c in Parser(src).unit() if c][0]
    g=Gen(dict(binders='{σ α : Type} (d : α) (isEq : α → α → Bool)',ctxargs=['d','isEq'],state='σ',types={'elem':'α'},defaults={'elem':'d','null':'d'},consts={'GenericType.DEFAULT':('d','elem')},external=xarr),[c])
    emit('GenericArray',['Verif.Gen.Prelude'],'arrays/KeyArray.ftl, with a generic element type','GenericArray',run(g,c.methods,{'GenericArray':'KeyArray.ftl'}))
    # ---- deque, vector
    base=['Verif.Gen.Prelude','Verif.Gen.NumUtils','Verif.Gen.CapacityCalculator','Verif.Gen.RangeCheckException','Verif.Gen.InitializationException']
    elem=dict(binders='{α : Type} (d : α)',ctxargs=['d'],types={'elem':'α'},defaults={'elem':'d','null':'d'},consts={'ElemType.DEFAULT':('d','elem'),'Integer.MAX_VALUE':('MAX_INT','int')},external=external,consumes=lambda t,m:'α')
    def ctor(g,c,src,ctors=None):
        m=(ctors or c.ctors)[0]; m.name='init'; m.body=[('expr',f.line,('assign',f.line,'',('field',f.line,('this',f.line),f.name),f.init)) for cc in [c] for f in cc.fields if not f.static and f.init is not None]+m.body
        g.meth[('init',len(m.params))]=[m]; g.names[id(m)]='init'
        return g.method(m,src)
    def refel(x): # the template's `ref` conditional becomes a parameter
        x=dict(x); x['binders']='{α : Type} (ref : Bool) (d : α)'; x['ctxargs']=['ref','d']; x['consts']=dict(x['consts'],ref=('ref','boolean')); return x
    c=load(T+'queue/KeyDeque.ftl',typ('type','Elem','elem'))
    g=Gen(dict(refel(elem),state='(Deque α)',struct='Deque',skip=['array','isReset']),[c])
    body=run(g,c.methods,{'ElemDeque':'KeyDeque.ftl'})+ctor(g,c,'KeyDeque.ftl')
    emit('KeyDeque',base+['Verif.Model.Deque'],'queue/KeyDeque.ftl','KeyDeque',body)
    walks('KeyDeque','queue/KeyDeque.ftl',body,'Deque α','{α : Type}')
    c=load(T+'vector/KeyVector.ftl',typ('type','Elem','elem'))
    g=Gen(dict(refel(elem),state='(Vec α)',struct='Vec'),[c])
    body=run(g,c.methods,{'ElemVector':'KeyVector.ftl'})+ctor(g,c,'KeyVector.ftl')
    emit('KeyVector',base+['Verif.Model.Vector'],'vector/KeyVector.ftl','KeyVector',body)
    walks('KeyVector','vector/KeyVector.ftl',body,'Vec α','{α : Type}')
    c=load(T+'queue/KeyHydraDeque.ftl',typ('type','Elem','elem'))
    g=Gen(dict(elem,state='(Hydra α)',struct='Hydra',skip=['iterator1','iterator2','reverseIterator1','reverseIterator2']),[c])
    body=run(g,c.methods,{'ElemHydraDeque':'KeyHydraDeque.ftl'})+ctor(g,c,'KeyHydraDeque.ftl')
    for ic in c.inner: # the iterators: their field `entry` beside the deque they belong to
        gi=Gen(dict(elem,state='(HydraIt α)',struct='HydraIt',fieldpath={f.name:'deque.'+f.name for f in c.fields}),[ic,c])
        body+=[f'namespace {ic.name}']+run(gi,ic.methods,{ic.name:'KeyHydraDeque.ftl'})+[f'end {ic.name}','']
    emit('KeyHydraDeque',base+['Verif.Model.Callbacks'],'queue/KeyHydraDeque.ftl','KeyHydraDeque',body)
    # ---- stores
    def ceil(g,e):
        """(int) Math.ceil((double)a / (double)b)"""
        if e[0]=='cast' and e[2]=='int':
            x=strip(e[3])
            if x[0]=='call' and x[3]=='ceil':
                y=strip(x[4][0])
                if y[0]=='bin' and y[2]=='/' and all(strip(z)[0]=='cast' and strip(z)[2]=='double' for z in y[3:5]):
                    (a,_),(b,_)=g.args([strip(y[3])[3],strip(y[4])[3]]); return f'(ceilDiv {g.at(a)} {g.at(b)})','int'
        return None
    for f,st in(('KeyChunkStore','ChunkStore'),('KeyChunkMatrixStore','MatrixStore')):
        c=load(T+f'store/{f}.ftl',typ('type','Elem','elem'))
        g=Gen(dict(elem,state=f'({st} α)',struct=st,special=ceil),[c])
        body=run(g,c.methods,{c.name:f+'.ftl'})+ctor(g,c,f+'.ftl')
        emit(f,base+['Verif.Model.Stores'],f'store/{f}.ftl',f,body)
    # ---- indexed collections
    bh=load(J+'hash/BaseHash.java')
    bk=load(T+'hash/BaseKeyIndex.ftl',typ('type','Key','key_t'))
    km=load(T+'hash/KeyValueIndexedMap.ftl',dict(typ('key','Key','key_t'),**typ('value','Value','value_t')))
    ks=load(T+'hash/KeyIndexedSet.ftl',typ('type','Key','key_t'))
    def lf(g,e):
        """the load factor: a double that is only compared with 0 and 1, multiplied with a capacity and cut"""
        if e[0]=='cast' and e[2]=='int':
            x=strip(e[3])
            if x[0]=='bin' and x[2]=='*':
                (a,ta),(b,tb)=g.args([x[3],x[4]])
                if tb=='double': return f'(Index.threshold {g.at(a)} {b}.1 {b}.2)','int'
        if e[0]=='bin' and e[2] in('<=','>') and strip(e[3])[0]=='name':
            n=strip(e[3])[2]
            if g.locals.get(n)=='double':
                c=strip(e[4])[2]
                if e[2]=='<=' and c=='0': return f'(decide ({n}.1 = 0))','boolean'
                if e[2]=='>' and c=='1': return f'(decide ({n}.1 > {n}.2))','boolean'
                raise Unsupported('double comparison')
        return None
    def xidx(g,e,q,n,a):
        if q is not None and q[0]=='name' and q[2]=='hashFunc' and n=='code':
            v,_=g.ex(a[0]); return f'({g.state()}.hashFunc {g.at(v)}).toInt','int'
        if q is not None and q[0]=='name' and q[2]=='equalFunc' and n=='areEqual':
            (x,_),(y,_)=g.args(a); return f'({g.state()}.equalFunc {g.at(x)} {g.at(y)})','boolean'
        return None
    def consumes(t,m): return {'forEachEntry':'Int','forEach':'K','forEachValue':'V'}[m.name]
    icfg=dict(binders='{K V : Type} [Inhabited K] [Inhabited V]',ctxargs=[],state='(Index K V)',struct='Index',
        types={'key_t':'K','value_t':'V','double':'(Nat × Nat)','KeyType.Hash':'(K → BitVec 32)','KeyType.Eq':'(K → K → Bool)',
               'BaseHash':'(Index K V)','BaseKeyIndex':'(Index K V)','KeyValueIndexedMap':'(Index K V)','KeyIndexedSet':'(Index K V)'},
        defaults={'key_t':'default','value_t':'default'},
        consts=dict({'Integer.MAX_VALUE':('MAX_INT','int')},**{'KeyType.DEFAULT':('default','key_t'),'ValueType.DEFAULT':('default','value_t'),'KeyType.HashImpl':('hash','KeyType.Hash'),'KeyType.EqImpl':('eq','KeyType.Eq')}),
        external=lambda g,e,q,n,a:None if q is None and n=='calculateNewCapacity' else external(g,e,q,n,a),external2=xidx,special=lf,consumes=consumes,
        fieldread={'loadFactor':lambda o:f'({o}.lfNum, {o}.lfDen)'},
        fieldwrite={'loadFactor':lambda v:f'modify fun self => {{ self with lfNum := {v}.1, lfDen := {v}.2 }}'},
        skip=['iterator0','iterator1'],
        rename={'get':'getValue','remove2':'removeKey'})
    src={'BaseHash':'BaseHash.java','BaseKeyIndex':'BaseKeyIndex.ftl','KeyValueIndexedMap':'KeyValueIndexedMap.ftl','KeyIndexedSet':'KeyIndexedSet.ftl'}
    bk_=bk
    for top in(km,ks):
        cs=copy.deepcopy([top,bk,bh])
        g=Gen(dict(icfg),cs)
        ms=[m for c in cs for m in c.methods if m.body is not None]
        body=run(g,ms,src)
        emit(top.name,base+['Verif.Model.Index'],f'hash/{src[top.name]}, BaseKeyIndex.ftl, BaseHash.java',top.name,body+ctors(g,cs,src))
        walks(top.name,f'hash/{src[top.name]}, BaseKeyIndex.ftl, BaseHash.java',body,'Index K V','{K V : Type}')
        def xeff(g,e,q,n,a):
            if q is not None and q[0]=='name' and q[2]=='hashFunc' and n=='code':
                v,_=g.ex(a[0]); r,_=g.bind(f'hashE eff {g.at(v)}','int'); return f'{r}.toInt','int'
            if q is not None and q[0]=='name' and q[2]=='equalFunc' and n=='areEqual':
                (x,_),(y,_)=g.args(a); return g.bind(f'eqE eff {g.at(x)} {g.at(y)}','boolean')
            return None
        cs=copy.deepcopy([top,bk,bh])
        g=Gen(dict(icfg,external2=xeff),cs)
        ms=[m for c in cs for m in c.methods if m.body is not None]
        emit(top.name+'Eff',[f'Verif.Gen.{top.name}','Verif.Model.IndexEff'],f'hash/{src[top.name]}, BaseKeyIndex.ftl, BaseHash.java (functions with effects)',top.name+'Eff',effectful(run(g,ms,src),top.name),' Verif.IndexEff')
    # the iterator of a map or a set: its fields beside the collection it belongs to.  A reference to an iterator is
    # `some ()` for the one of the state, `none` for null.
    body=[]
    for top in(km,ks):
        cs=copy.deepcopy([top,bk,bh]); ic=[x for x in cs[2].inner if x.name=='IteratorImpl'][0]
        def xitr(g,e,q,n,a):
            if q is not None and q[0]=='name' and q[2]=='enumerator' and n=='reset':
                g.ln(f'let _ ← deref {q[2]}'); g.ln('reset'); g.effect(); return '()','void'
            return None
        def mknew(g,e):
            if e[0]=='new' and e[2]=='IteratorImpl' and not e[3]: g.ln('init'); g.effect(); return '(some ())','EntryIterator'
            return None
        fp={f.name:'it.'+f.name for f in ic.fields}
        for c2 in cs:
            for f in c2.fields:
                if not f.static: fp[f.name]='map.'+f.name
        gi=Gen(dict(icfg,state='(Iterating K V)',struct='Iterating',fieldpath=fp,fieldread={},fieldwrite={},external2=xitr,special=mknew,skip=[],rename={'initialize':'initialise'},types=dict(icfg['types'],EntryIterator='(Option Unit)'),defaults=dict(icfg['defaults'],null='none')),[ic]+cs)
        its=[m for m in cs[2].methods if m.name=='iterator']
        body+=[f'namespace {top.name}','']+run(gi,ic.methods,dict(src,**{ic.name:'BaseHash.java'}))
        body+=ctor(gi,ic,'BaseHash.java')+run(gi,sorted(its,key=lambda m:-len(m.params)),src)+[f'end {top.name}','']
    emit('EntryIterator',base+['Verif.Model.Iterator'],'hash/BaseHash.java (IteratorImpl)','EntryIterator',body)
    # ---- heap
    hs=load(J+'heap/BaseHeap.java')
    bk=load(T+'heap/BaseKeyHeap.ftl',typ('type','Key','key_t'))
    kv=load(T+'heap/KeyValueHeap.ftl',dict(typ('key','Key','key_t'),**typ('value','Value','value_t')))
    def xheap(g,e,q,n,a):
        if q is not None and q[0]=='name' and q[2]=='comp' and n=='compare':
            (x,_),(y,_)=g.args(a); return f'({g.state()}.comp.compare {g.at(x)} {g.at(y)})','int'
        if q is not None and q[0]=='field' and q[3]=='EqImpl' and n=='areEqual':
            (x,_),(y,_)=g.args(a); return f'({g.at(x)} == {g.at(y)})','boolean'
        return None
    def cmpref(g,o,a,ta,b,tb):
        """`==` on comparators compares references"""
        if ta=='KeyType.Cmp' and o=='==': return f'(decide ({a}.map Comparator.ref = {b}.map Comparator.ref))','boolean'
    hcfg=dict(binders='{K V : Type} [BEq K] [BEq V]',ctxargs=[],state='(Heap K V)',struct='Heap',
        types={'key_t':'K','value_t':'V','KeyType.Cmp':'(Option (Comparator K))'},
        consts={'Integer.MAX_VALUE':('MAX_INT','int'),'IntType.DEFAULT':('0','int'),'KeyType.DEFAULT':('dk','key_t'),'ValueType.DEFAULT':('dv','value_t'),'KeyType.Asc':('(some asc)','KeyType.Cmp')},
        external=icfg['external'],external2=xheap,arith=cmpref,consumes=lambda t,m:'Int',
        fieldread={'comp':lambda o:f'(some {o}.comp)'},
        fieldwrite={'comp':lambda v:f'deref {v} >>= fun c => modify fun self => {{ self with comp := c }}'},defaults={'key_t':'dk','value_t':'dv'})
    src={'BaseHeap':'BaseHeap.java','BaseKeyHeap':'BaseKeyHeap.ftl','KeyValueHeap':'KeyValueHeap.ftl'}
    cs=[kv,bk,hs]; cs0=copy.deepcopy(cs)
    g=Gen(hcfg,cs)
    ms=[m for c in cs for m in c.methods if m.body is not None]
    body=run(g,ms,src)
    emit('KeyValueHeap',base+['Verif.Model.Heap'],'heap/KeyValueHeap.ftl, BaseKeyHeap.ftl, BaseHeap.java','KeyValueHeap',body+ctors(g,cs,src,' (asc : Comparator K) (dk : K) (dv : V)',['asc','dk','dv']))
    walks('KeyValueHeap','heap/KeyValueHeap.ftl, BaseKeyHeap.ftl, BaseHeap.java',body,'Heap K V','{K V : Type}')
    def xheapeff(g,e,q,n,a):
        if q is not None and q[0]=='name' and q[2]=='comp' and n=='compare':
            (x,_),(y,_)=g.args(a); return g.bind(f'cmpE eff {g.at(x)} {g.at(y)}','int')
        return xheap(g,e,q,n,a)
    cs=copy.deepcopy(cs0)
    g=Gen(dict(hcfg,external2=xheapeff),cs)
    ms=[m for c in cs for m in c.methods if m.body is not None]
    emit('KeyValueHeapEff',['Verif.Gen.KeyValueHeap','Verif.Model.HeapEff'],'heap/KeyValueHeap.ftl, BaseKeyHeap.ftl, BaseHeap.java (comparators with effects)','KeyValueHeapEff',
        effectful(run(g,ms,src),'KeyValueHeap',('cmpE',),('Heap K V','Obs σ K V'),('{K V : Type} [BEq K] [BEq V]','{σ K V : Type} [BEq K] [BEq V] (eff : Effect σ K)')),' Verif.HeapEff')
    # ---- sort: the arrays are passed along unchanged, so they are places in a memory `M`, like fields
    c=load(T+'sort/KeyValueCompanionSort.ftl',dict(typ('key','Key','key_t'),**typ('value','Value','value_t')))
    PLACE={'pri':'pri','sec':'sec','x':'pri'}
    for m in c.methods:
        m.body=rename_in(m.body,{'x':'pri'} if any(p=='x' for t,p in m.params) else {})
        m.params=[(t,PLACE.get(p,p)) for t,p in m.params]
    def passed(n):
        """every call hands `pri`, `sec` and `cmp` to the parameters of the same name"""
        if n[0]=='call' and n[2] is None:
            for m in c.methods:
                if m.name==n[3] and len(m.params)==len(n[4]):
                    for (t,p),a in zip(m.params,n[4]):
                        if p in('pri','sec','cmp') and strip(a)[:1]+strip(a)[2:]!=('name',p): raise Unsupported('array argument')
    for m in c.methods: walk(m.body,passed)
    def xsort(g,e,q,n,a):
        if q is not None and q[0]=='name' and q[2]=='cmp' and n=='compare':
            (x,_),(y,_)=g.args(a); return g.bind(f'cmp {g.at(x)} {g.at(y)}','int')
        return None
    g=Gen(dict(binders='{S K V : Type} (M : SortMem.Mem S K V) (cmp : K → K → JM S Int)',ctxargs=['M','cmp'],state='S',types={'key_t':'K','value_t':'V'},
        external=external,external2=xsort,dropparams=lambda m:{'pri','sec','cmp'},arrayfields=True,lname={'n':'n_','s':'s_','v':'v_'},
        arraymem={'pri':('M.pri','M.setPri'),'sec':('M.sec','M.setSec')},fieldread={'pri':lambda o:f'(M.pri {o})','sec':lambda o:f'(M.sec {o})'}),[c])
    import types
    g.fields={'pri':types.SimpleNamespace(type='key_t[]'),'sec':types.SimpleNamespace(type='value_t[]')}
    emit('KeyValueCompanionSort',['Verif.Gen.Prelude','Verif.Model.SortMem'],'sort/KeyValueCompanionSort.ftl','KeyValueCompanionSort',run(g,c.methods,{c.name:'KeyValueCompanionSort.ftl'}))
    # ---- bi: a side has its own state; mappings and iterators are parts of the collection, told apart by `d`
    os_=load(J+'bi/CompactOneToMany.java'); mm=load(J+'bi/CompactManyToMany.java'); sd=load(J+'bi/Side.java'); mp=load(J+'bi/Mapping.java')
    it=load(T+'functional/KeyIterator.ftl',typ('type','Int','int'))
    unset=[f for f in os_.fields if f.name=='UNSET'][0]
    u=Gen(dict(binders='',state='',types={},external=external),[]).ex(unset.init)
    UN={'UNSET':u,'CompactOneToMany.UNSET':u}
    body=['namespace Side','']
    g=Gen(dict(binders='',ctxargs=[],state='Verif.Side',struct='Verif.Side',types={},consts=UN,external=external,nullable=('count',),skip=['createValueIterator','createEntryIterator']),[sd])
    gsd=g
    body+=run(g,sd.methods,{'Side':'Side.java'})+ctor(g,sd,'Side.java')+['end Side','']
    itf=lambda k:{'key':f'key','entry':'entry'}
    gits={}
    for ic in sd.inner:
        k={'EntryIterator':'.entry','ValueIterator':'.value'}[ic.name]
        def xit(g,e,q,n,a):
            if q is not None and q[0]=='name' and q[2]=='lookupFunc' and n=='getAt':
                v,_=g.ex(a[0]); return g.bind(f'lookup {g.at(v)}','int')
            return None
        gi=Gen(dict(binders='(lookup : Int → JM Bi Int) (d : Dir)',ctxargs=['lookup','d'],state='Bi',struct='Bi',types={},consts=UN,external=external,external2=xit,consumes=lambda t,m:'Int',
            fieldread={**{f:(lambda f:lambda o:f'(Bi.cur d {k} {o}).{f}')(f) for f in('key','entry')},**{f:(lambda f:lambda o:f'(Bi.side d {o}).{f}')(f) for f in('heads','nexts')}},
            fieldwrite={f:(lambda f:lambda v:f'modify fun self => Bi.setCur d {k} self {{ Bi.cur d {k} self with {f} := {v} }}')(f) for f in('key','entry')},
            arraymem={f:(f'(fun self => (Bi.side d self).{f})',None) for f in('heads','nexts')}),[ic,copy.deepcopy(it),sd])
        gits[ic.name]=gi
        its=[m for c2 in gi.classes[:2] for m in c2.methods]
        body+=[f'namespace {ic.name}','']+run(gi,its,{ic.name:'Side.java',it.name:'KeyIterator.ftl'})+[f'end {ic.name}','']
    ITS={'entryIterator':'EntryIterator','valueIterator':'ValueIterator'}
    def xmap(g,e,q,n,a):
        if q is not None and q[0]=='name' and q[2]=='side' and n=='count':
            v,_=g.ex(a[0]); return g.bind(f'Bi.onSide d (Side.count {g.at(v)})','int')
        if q is not None and q[0]=='name' and q[2] in ITS and n=='reset':
            v,_=g.ex(a[0]); g.ln(f'{ITS[q[2]]}.reset1 lookup d {g.at(v)}'); g.effect(); return '()','void'
        if q is not None and q[0]=='call' and q[2] is None and q[3] in ITS and n=='forEach' and strip(a[0])==('name',strip(a[0])[1],g.consumer):
            g.ex(q); x=g.fresh(); g.ln(f'let {x} ← {ITS[q[3]]}.forEach lookup d fuel consumer'); g.effect(); g.ln(f'let acc := acc ++ {x}'); return '()','void'
        return None
    def itself(g,e):
        if e[0]=='name' and e[2] in ITS: return '()','IntIterator'
        return None
    def extfuel(n): return n[3]=='forEach'
    g=Gen(dict(binders='(lookup : Int → JM Bi Int) (d : Dir)',ctxargs=['lookup','d'],state='Bi',struct='Bi',types={'IntIterator':'Unit'},consts=UN,external=external,external2=xmap,special=itself,extfuel=extfuel,consumes=lambda t,m:'Int',
        fieldread={'key':lambda o:f'(Bi.map d {o}).key'},fieldwrite={'key':lambda v:f'modify fun self => Bi.setMap d self {{ Bi.map d self with key := {v} }}'}),[mp])
    # what the constructor of a mapping does beside setting `key`: it takes a side and makes the two iterators on it
    want=[('assign','',('field',('this',),'side'),('call',None,'requireNonNull',[('name','side'),('str','"side"')])),
          ('assign','',('field',('this',),'entryIterator'),('call',('name','side'),'createEntryIterator',[])),
          ('assign','',('field',('this',),'valueIterator'),('call',('name','side'),'createValueIterator',[('name','valueLookupFunc')]))]
    if [noline(x[2]) for x in mp.ctors[0].body]!=want: raise Unsupported('constructor of Mapping')
    for m in sd.methods:
        if m.name in('createValueIterator','createEntryIterator'):
            n=strip(m.body[0][2])
            if len(m.body)!=1 or m.body[0][0]!='return' or n[0]!='new' or n[2]!=m.name[6:]: raise Unsupported(m.name)
    mp.ctors[0].body=[]; mp.ctors[0].params=[]
    body+=['namespace Mapping','']+run(g,mp.methods,{'Mapping':'Mapping.java'})+ctor(g,mp,'Mapping.java')+['end Mapping','']
    # the walk over all entries, on the set inside the collection (so that the consumer acts on the collection)
    sets=copy.deepcopy([ks,bk_,bh])
    gs=Gen(dict(icfg,types=dict(icfg['types'],key_t='(BitVec 64)'),binders='',state='Bi',struct='Bi',fieldpath={f.name:'mappings.'+f.name for c2 in sets for f in c2.fields}),sets)
    fe=[m for c2 in sets for m in c2.methods if m.name=='forEachEntry']
    body+=['namespace Set','']+run(gs,fe,{'BaseHash':'BaseHash.java','BaseKeyIndex':'BaseKeyIndex.ftl','KeyIndexedSet':'KeyIndexedSet.ftl'})+['end Set','']
    gset=Gen(dict(icfg),copy.deepcopy([ks,bk_,bh]))
    SIDE={'left':'.left','right':'.right'}; MAPF={'leftMapping':'left','rightMapping':'right'}
    look={}
    def setfuel(n):
        q=n[2] and strip(n[2])
        if q and q[0]=='name' and q[2]=='mappings':
            m=gset.lookup(n[3],len(n[4])); return m is not None and gset.needs_fuel(m)
        return False
    def xbi(g,e,q,n,a):
        if q is None or q[0]!='name': return None
        if q[2]=='Pack' and n=='packToLong': (x,_),(y,_)=g.args(a); return f'(Bi.pack {g.at(x)} {g.at(y)})','long'
        if q[2]=='Pack' and n in('unpackHiInt','unpackLoInt'): v,_=g.ex(a[0]); return f'(Pack.{n} {g.at(v)}).toInt','int'
        if q[2]=='mappings':
            m=gset.lookup(n,len(a)); f=' fuel' if gset.needs_fuel(m) else ''
            if n=='forEachEntry':
                x=g.fresh(); g.ln(f'let {x} ← Set.forEachEntry{f} consumer'); g.effect(); g.ln(f'let acc := acc ++ {x}'); return '()','void'
            vs=''.join(' '+g.at(v) for v,_ in g.args(a)); c=f'Bi.onMappings (Gen.KeyIndexedSet.{gset.names[id(m)]}{f}{vs})'
            if m.ret=='void': g.ln(c); g.effect(); return '()','void'
            return g.bind(c,{'key_t':'long'}.get(m.ret,m.ret))
        if q[2] in SIDE and gsd.lookup(n,len(a)):
            vs=''.join(' '+g.at(v) for v,_ in g.args(a)); g.ln(f'Bi.onSide {SIDE[q[2]]} (Side.{n}{vs})'); g.effect(); return '()','void'
        if q[2] in MAPF and n=='resetKey':
            v,_=g.ex(a[0]); g.ln(f"Mapping.resetKey {look[MAPF[q[2]]]} {SIDE[MAPF[q[2]]]} {g.at(v)}"); g.effect(); return '()','void'
        return None
    def objects(g,e):
        if e[0]=='assign' and e[2]=='':
            t,r=strip(e[3]),strip(e[4]); n=t[2] if t[0]=='name' else t[3]
            if r[0]=='new' and r[2]=='LongIndexedSet' and n=='mappings':
                vs=''.join(' '+g.at(v) for v,_ in g.args(r[3])); g.ln(f'Bi.onMappings (Gen.KeyIndexedSet.init{len(r[3])} KeyTypes.longHash KeyTypes.longEq{vs})'); g.effect(); return '()','void'
            if r[0]=='new' and r[2]=='Side' and n in SIDE:
                vs=''.join(' '+g.at(v) for v,_ in g.args(r[3])); g.ln(f'Bi.onSide {SIDE[n]} (Side.init{vs})'); g.effect(); return '()','void'
            if r[0]=='new' and r[2]=='Mapping' and n in MAPF and strip(r[3][0])[2]==MAPF[n]:
                if strip(r[3][1])[0]!='mref': raise Unsupported('lookup function')
                g.ln(f'Mapping.init {look[MAPF[n]]} {SIDE[MAPF[n]]}'); g.effect(); return '()','void'
            raise Unsupported('assignment of an object')
        if e[0]=='name' and e[2] in MAPF: return '()','Mapping'
        return None
    def findlook(n):
        if n and n[0]=='assign' and strip(n[4])[0]=='new' and strip(n[4])[2]=='Mapping':
            t=strip(n[3]); r=strip(n[4])[3]; x=strip(r[1])
            if x[0]!='mref' or x[2][0]!='this': raise Unsupported('lookup function')
            look[MAPF[t[2] if t[0]=='name' else t[3]]]=x[3]
    for c2 in(os_,mm):
        for m in c2.ctors: walk(m.body,findlook)
    for top,ns in(([os_],'OneToMany'),([mm,os_],'ManyToMany')):
        cs=copy.deepcopy(top)
        g=Gen(dict(binders='',ctxargs=[],state='Bi',struct='Bi',types={'long':'(BitVec 64)','Mapping':'Unit'},external=external,external2=xbi,special=objects,extfuel=setfuel,consumes=lambda t,m:'Int'),cs)
        for c2 in cs: c2.fields=[f for f in c2.fields if f.static or f.init is not None]
        src={'CompactOneToMany':'CompactOneToMany.java','CompactManyToMany':'CompactManyToMany.java'}
        order=['getLeftAt','getRightAt']
        ms=[m for c2 in cs for m in c2.methods]; ms.sort(key=lambda m:order.index(m.name) if m.name in order else 9)
        body+=[f'namespace {ns}','']+run(g,ms,src)+ctors(g,cs,src,'',[])+[f'end {ns}','']
        body+=[f'/-- The lookup functions the constructors give to the mappings of {ns}. -/',f'def {ns}.lookup : Dir → Int → JM Bi Int',f'  | .left => {ns}.{look["left"]}',f'  | .right => '+(f'{ns}.{look["right"]}' if ns=='ManyToMany' else 'fun _ => JM.throw .nullPointer'),'']
    text='\n'.join(body).replace('JM Bi β','JM (Bi) β').replace('JM Bi (List','JM (Bi) (List').replace('JM Bi ((List','JM (Bi) ((List')
    again=[]
    for n in('EntryIterator','ValueIterator','Mapping','Set','OneToMany','ManyToMany'):
        part=text.split(f'namespace {n}\n')[1].split(f'end {n}\n')[0].split('\n')
        again+=[f'namespace {n}','']+effectful(part,f'Pairs.{n}',('consumer',),('Bi','Beside σ Bi'),('{β : Type}','{β σ : Type}'),'',('EntryIterator.forEach','ValueIterator.forEach','Set.forEachEntry'))+[f'end {n}','']
    emit('PairsWalk',['Verif.Gen.Pairs','Verif.Model.Walk'],'bi/Side.java, Mapping.java, CompactOneToMany.java, CompactManyToMany.java, functional/KeyIterator.ftl, hash/BaseHash.java (consumers with a state of their own)','PairsWalk',again,' Verif.Walk')
    emit('Pairs',base+['Verif.Model.Bi','Verif.Gen.KeyIndexedSet'],'bi/Side.java, Mapping.java, CompactOneToMany.java, CompactManyToMany.java, functional/KeyIterator.ftl','Pairs',body)
    # ---- types and id: primitive values with their widths
    enums={'CompareMethod':['ascending','descending','ascendingAbsolute','descendingAbsolute'],'PredicateMethod':['eq','neq','lt','lte','gt','gte']}
    for k,v in enums.items():
        cs=load(J+f'types/{k}.java').consts
        if [x.lower() for x in cs]!=[x.lower() for x in v]: raise Unsupported(k)
        enums[k]=dict(zip(cs,v))
    names=['Pack','ByteType','ShortType','CharType','IntType','LongType','FloatType','DoubleType','BoolType','StringType','GenericType']
    tys=[load(J+f'types/{n}.java') for n in names]
    refs={(c,x) for c in('StringType','GenericType') for x in('EqImpl','Asc','Desc','AscInsensitive','DescInsensitive','nullableCompare','IS_EQ','IS_NEQ','IS_LT','IS_GT','IS_LTE','IS_GTE','HashImpl')}
    p=Prims(tys,refs,enums)
    for c in tys:
        for f in c.fields:
            if not(f.name=='DEFAULT' and c.name in('StringType','GenericType')): p.need(c.name,f.name)
        for m in c.methods: p.need(c.name,m.name,len(m.params))
    emit('Types',['Verif.Gen.Jdk'],'types/*.java','Types',p.close())
    sn=load(J+'id/Snowflake.java')
    p=Prims([sn],set(),{},['nodeId','customEpoch','lastTimestamp','sequence'])
    for m in sn.ctors: p.need('Snowflake','<init>',len(m.params))
    for m in sn.methods:
        if m.name!='toString' and not(m.name=='snowflake' and len(m.params)==1): p.need('Snowflake',m.name,len(m.params))
    emit('Snowflake',['Verif.Gen.Jdk'],'id/Snowflake.java','Ids',p.close())
def noline(e):
    if isinstance(e,tuple):
        e=(e[0],)+e[2:] if len(e)>1 and isinstance(e[1],int) else e
        return tuple(noline(x) for x in e)
    if isinstance(e,list): return [noline(x) for x in e]
    return e
def rename_in(e,d):
    if isinstance(e,tuple):
        if e and e[0]=='name' and e[2] in d: return (e[0],e[1],d[e[2]])
        return tuple(rename_in(x,d) for x in e)
    if isinstance(e,list): return [rename_in(x,d) for x in e]
    return e
if __name__=='__main__': main()
