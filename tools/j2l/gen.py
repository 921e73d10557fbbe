"""Translates parsed Java methods to Lean definitions in the monad `JM` (lean/Verif/Java.lean).

Every Java statement becomes one or more Lean statements, in evaluation order:
 * `int` is `Int`, every arithmetic result is wrapped with `i32`;
 * fields live in the object state (a Lean structure with the same field names);
 * array accesses are `rd`/`wr` (bounds-checked), local arrays `rdA`/`wrA`;
 * a loop is a function that recurses on a counter; running out of it is `Err.diverge`, and the
   counter starts at the parameter `fuel` of the method, so a statement "for every large enough
   fuel" is about the Java loop;
 * `consumer.accept(x)` calls the parameter `consumer` and collects its results.
"""
import sys
sys.setrecursionlimit(10000)

class Unsupported(Exception): pass

def walk(e,f):
    """apply f to every tuple node"""
    if isinstance(e,tuple):
        f(e)
        for x in e: walk(x,f)
    elif isinstance(e,list):
        for x in e: walk(x,f)

def strip(e):
    while e[0]=='paren': e=e[2]
    return e

class Gen:
    def __init__(s,cfg,classes):
        s.cfg=cfg; s.out=[]; s.classes=classes  # most derived first
        s.fields={}; s.consts={}
        for c in reversed(classes):
            for f in c.fields:
                if f.static: s.consts[f.name]=f
                else: s.fields[f.name]=f
        # method table: (name, arity) -> list of methods, most derived first
        s.meth={}
        for c in classes:
            for m in c.methods: s.meth.setdefault((m.name,len(m.params)),[]).append(m)
        s.names={}
        skip=set(cfg.get('skip',[]))
        for (n,a),l in s.meth.items():
            over=len({k for k in s.meth if k[0]==n})>1
            for i,m in enumerate(l):
                nm=n+(str(a) if over else '')
                if i>0: nm='super'*i+'_'+nm
                s.names[id(m)]=cfg.get('rename',{}).get(nm,nm)
        s.skip=skip
        s.fuelcache={}; s.raw=False
    # ---------- helpers about methods
    def lookup(s,name,nargs,level=0,cls=None):
        l=s.meth.get((name,nargs))
        if not l: return None
        if cls is not None: # super call from cls
            order=[c.name for c in s.classes]
            l=[m for m in l if order.index(m.cls)>order.index(cls)]
            return l[0] if l else None
        return l[0]
    def needs_fuel(s,m,seen=()):
        if id(m) in s.fuelcache: return s.fuelcache[id(m)]
        if id(m) in seen: return True
        r=[False]
        def f(n):
            if n[0]=='for': r[0]=True
            if n[0]=='call' and (n[2] is None or n[2][0]=='this'):
                t=s.lookup(n[3],len(n[4]))
                if t and s.names[id(t)] not in s.skip and s.needs_fuel(t,seen+(id(m),)): r[0]=True
            if n[0]=='supercall':
                t=s.lookup(n[2],len(n[3]),cls=m.cls)
                if t and s.needs_fuel(t,seen+(id(m),)): r[0]=True
            if n[0]=='call' and s.ext_fuel(n): r[0]=True
        walk(m.body,f)
        s.fuelcache[id(m)]=r[0]
        return r[0]
    def ext_fuel(s,n):
        h=s.cfg.get('extfuel')
        return bool(h and h(n))
    def ltype(s,t):
        if t in s.cfg['types']: return s.cfg['types'][t]
        if t.endswith('[]'): return f'(Arr {s.ltype(t[:-2])})'
        base={'int':'Int','boolean':'Bool','void':'Unit'}
        if t in base: return base[t]
        raise Unsupported('type '+t)
    def is_consumer(s,t): return t.split('.')[-1].endswith('Consumer')
    # ---------- emission
    def ln(s,x): s.lines.append('  '*s.ind+x)
    def fresh(s,p='v'): s.cnt+=1; return f'{p}{s.cnt}'
    def effect(s): s.st=None
    def state(s):
        if s.st is None:
            s.st=s.fresh('s'); s.ln(f'let {s.st} ← get')
        return s.st
    def fpath(s,f): return s.cfg.get('fieldpath',{}).get(f,f)
    def setfield(s,f,v):
        s.ln(f'modify fun self => {{ self with {s.fpath(f)} := {v} }}'); s.effect()
    def bind(s,m,ty):
        v=s.fresh(); s.ln(f'let {v} ← {m}'); s.effect(); return v,ty
    def purebind(s,e,ty):
        v=s.fresh(); s.ln(f'let {v} := {e}'); return v,ty
    # ---------- assigned-variable analysis
    def assigned(s,ss):
        r=set()
        def f(n):
            if n[0] in('assign',):
                t=strip(n[3])
                if t[0]=='name': r.add(t[2])
                if t[0]=='index':
                    b=strip(t[2])
                    if b[0]=='name': r.add(b[2])
            if n[0]=='incdec':
                t=strip(n[4])
                if t[0]=='name': r.add(t[2])
                if t[0]=='index' and strip(t[2])[0]=='name': r.add(strip(t[2])[2])
            if n[0]=='call' and s.acc and n[3]=='accept': r.add('acc')
            if n[0]=='call' and s.acc and any(strip(a)==('name',strip(a)[1],s.consumer) for a in n[4]): r.add('acc')
            if n[0]=='call':
                for w in s.written_args(n): r.add(w)
        walk(ss,f)
        return r
    def written_args(s,n):
        """local arrays a static helper writes through"""
        q=n[2]; out=[]
        if n[3]=='arraycopy': a=strip(n[4][2]); out=[a]
        elif n[3]=='fill' : out=[strip(n[4][0])]
        else:
            m=s.lookup(n[3],len(n[4])) if q is None else None
            if m:
                for i,(t,p) in enumerate(m.params):
                    if p in s.written_params(m): out.append(strip(n[4][i]))
        return [a[2] for a in out if a[0]=='name' and a[2] in s.locals]
    def written_params(s,m):
        if s.cfg.get('arrayfields'): return set()
        r=set(); ps={p for t,p in m.params if t.endswith('[]')}
        def f(n):
            t=None
            if n[0]=='assign': t=strip(n[3])
            if n[0]=='incdec': t=strip(n[4])
            if t and t[0]=='index' and strip(t[2])[0]=='name' and strip(t[2])[2] in ps: r.add(strip(t[2])[2])
            if n[0]=='call':
                if n[2] is None:
                    k=s.lookup(n[3],len(n[4]))
                    if k and k is not m:
                        w=s.written_params(k)
                        for i,(t2,p2) in enumerate(k.params):
                            if p2 in w and strip(n[4][i])[0]=='name' and strip(n[4][i])[2] in ps: r.add(strip(n[4][i])[2])
        walk(m.body,f)
        return r
    def used(s,ss):
        r=set()
        def f(n):
            if n[0]=='name': r.add(n[2])
            if n[0]=='call' and s.acc and n[3]=='accept': r.add('acc'); r.add(s.consumer)
        walk(ss,f); return r
    def jumps(s,ss,loop=True):
        """contains return, or (outside inner loops) break/continue"""
        for x in ss:
            if x[0]=='return': return True
            if x[0] in('break','continue') and loop: return True
            if x[0]=='if' and (s.jumps(x[3],loop) or s.jumps(x[4],loop)): return True
            if x[0]=='block' and s.jumps(x[2],loop): return True
            if x[0]=='for' and s.jumps(x[5],False): return True
        return False
    def returns(s,ss):
        r=[False]
        def f(n):
            if n and n[0]=='return': r[0]=True
        walk(ss,f); return r[0]
    def abrupt(s,ss):
        if not ss: return False
        x=ss[-1]
        if x[0] in('return','throw','break','continue'): return True
        if x[0]=='if': return bool(x[4]) and s.abrupt(x[3]) and s.abrupt(x[4])
        if x[0]=='block': return s.abrupt(x[2])
        if x[0]=='for':
            return strip(x[3])[0]=='bool' and strip(x[3])[2] and not s.has_break(x[5])
        return False
    def has_break(s,ss):
        for x in ss:
            if x[0]=='break': return True
            if x[0]=='if' and (s.has_break(x[3]) or s.has_break(x[4])): return True
            if x[0]=='block' and s.has_break(x[2]): return True
        return False
    # ---------- expressions: return (lean, javatype)
    def has_assign(s,e):
        r=[False]
        def f(n):
            if n[0] in('assign','incdec'): r[0]=True
        walk(e,f); return r[0]
    def args(s,es):
        out=[]
        for i,e in enumerate(es):
            v,t=s.ex(e)
            if any(s.has_assign(x) for x in es[i+1:]) and not v.lstrip('-').isdigit():
                v,t=s.purebind(v,t)
            out.append((v,t))
        return out
    def at(s,v):
        return v if v.replace('.','').replace('_','').isalnum() or (v[0]=='(' and s.balanced(v)) else f'({v})'
    def balanced(s,v):
        d=0
        for i,c in enumerate(v):
            if c=='(': d+=1
            if c==')':
                d-=1
                if d==0 and i<len(v)-1: return False
        return True
    def ex(s,e):
        k=e[0]; cfg=s.cfg
        h=cfg.get('special')
        if h:
            r=h(s,e)
            if r is not None: return r
        if k=='paren': return s.ex(e[2])
        if k=='num':
            t=e[2].replace('_','')
            if '.' in t:
                from fractions import Fraction
                q=Fraction(t); return f'(({q.numerator}, {q.denominator}) : Nat × Nat)','double'
            if t[-1] in 'lL': return str(int(t[:-1],0)),'long'
            return str(int(t,0)),'int'
        if k=='bool': return ('true' if e[2] else 'false'),'boolean'
        if k=='null': return 'NULL','null'
        if k=='name':
            n=e[2]
            if n in s.locals: return s.lname(n),s.locals[n]
            if n in s.fields:
                if n in cfg.get('nullable',()) and not s.raw: return s.bind2(f'deref {s.state()}.{s.fpath(n)}',s.fields[n].type)
                return s.fieldread(s.state(),n)
            if n in s.consts:
                c=s.consts[n]
                return s.const(n,c)
            if n in cfg.get('consts',{}): return cfg['consts'][n]
            raise Unsupported(f'name {n} line {e[1]}')
        if k=='field':
            o,n=strip(e[2]),e[3]
            if o[0]=='this': 
                return s.fieldread(s.state(),n)
            if o[0]=='name' and o[2] not in s.locals and o[2] not in s.fields:
                key=f'{o[2]}.{n}'
                if key in cfg.get('consts',{}): return cfg['consts'][key]
                raise Unsupported(key+f' line {e[1]}')
            v,t=s.ex(o)
            if t.endswith('[]') and n=='length': return f'({s.at(v)}.len : Int)','int'
            if n in s.fields: return s.fieldread(s.at(v),n)
            raise Unsupported(f'field {n} line {e[1]}')
        if k=='cast':
            v,t=s.ex(e[3])
            if e[2]==t or t in ('null',): return v,e[2]
            if e[2] in cfg.get('casts',{}): return cfg['casts'][e[2]](s,v,t)
            return v,(t if e[2] not in('int','long','byte','short','char') else s.badcast(e,t))
        if k=='un':
            if e[2]=='-' and strip(e[3])[0]=='num':
                v,t=s.ex(e[3]); return f'(-{v})',t
            v,t=s.ex(e[3])
            if e[2]=='-': return f'(i32 (-{s.at(v)}))',t
            if e[2]=='!': return f'(!{s.at(v)})','boolean'
            raise Unsupported('unary '+e[2])
        if k=='bin': return s.binop(e)
        if k=='tern':
            c,_=s.ex(e[2]); return s.branchval(c,lambda:s.ex(e[3]),lambda:s.ex(e[4]))
        if k=='assign':
            return s.assign(e)
        if k=='incdec':
            tgt=strip(e[4])
            old,t=s.rdlv(tgt)
            new=f"i32 ({s.at(old)} {'+' if e[2]=='++' else '-'} 1)"
            if e[3]:
                v,_=s.purebind(new,t); s.wrlv(v,t); return v,t
            o,_=s.purebind(old,t); v=f"(i32 ({o} {'+' if e[2]=='++' else '-'} 1))"; s.wrlv(v,t); return o,t
        if k=='index': return s.index(e)
        if k=='call': return s.call(e)
        if k=='supercall':
            m=s.lookup(e[2],len(e[3]),cls=s.m.cls)
            if m is None: raise Unsupported('super '+e[2])
            return s.invoke(m,s.args(e[3]))
        if k=='newarr':
            t=e[2]
            vs=s.args(e[3])
            if len(vs)==1 and e[4]==0: return s.bind(f'newArr {s.at(vs[0][0])} {s.dflt(t)}',t+'[]')
            if len(vs)==2 and e[4]==0:
                return s.bind(f'newArr2 {s.at(vs[0][0])} {s.at(vs[1][0])} {s.dflt(t)}',t+'[][]')
        raise Unsupported(f'expression {k} line {e[1]}')
    def fieldread(s,o,n):
        h=s.cfg.get('fieldread',{}).get(n)
        return (h(o) if h else f'{o}.{s.fpath(n)}'),s.fields[n].type
    def badcast(s,e,t): raise Unsupported(f'cast to {e[2]} from {t} line {e[1]}')
    def dflt(s,t):
        d=s.cfg.get('defaults',{})
        if t in d: return d[t]
        if t=='int': return '0'
        if t.endswith('[]'): return '(Arr.create 0 '+s.dflt(t[:-2])+')'
        raise Unsupported('default of '+t)
    def const(s,n,c):
        cc=s.cfg.get('consts',{})
        if n in cc: return cc[n]
        v,_=s.ex(c.init); return v,c.type
    def lname(s,n):
        return s.cfg.get('lname',{}).get(n,n)
    def branchval(s,c,fa,fb):
        """a conditional expression; branches may have effects"""
        save=s.lines; st=s.st
        def br(f):
            s.lines=[]; s.ind+=2; s.st=st; v,t=f(); ls=s.lines; s.ind-=2; stx=s.st; s.lines=save; return ls,v,t,stx
        la,va,ta,sa=br(fa); lb,vb,tb,sb=br(fb); s.st=st
        t=ta if ta!='null' else tb
        if (ta=='null')!=(tb=='null') and t.endswith('[]'): # a reference that may be null
            va,vb=[('none' if x=='null' else f'some {s.at(v)}') for v,x in((va,ta),(vb,tb))]; t+='?'
        if not la and not lb:
            return f'(if {s.at(c)} = true then {va} else {vb})',t
        v=s.fresh()
        s.ln(f'let {v} ← (if {s.at(c)} = true then do'); s.lines+=la; s.ln(f'    pure {s.at(va)}'); s.ln('  else do'); s.lines+=lb; s.ln(f'    pure {s.at(vb)})')
        s.effect(); return v,t
    def binop(s,e):
        o=e[2]
        if o in('&&','||'):
            a,_=s.ex(e[3])
            save=s.lines; s.lines=[]; st=s.st; s.ind+=2
            b,_=s.ex(e[4]); lb=s.lines; s.lines=save; s.ind-=2; s.st=st
            if not lb: return f"({a} {o} {b})",'boolean'
            if all(' ← get' in x for x in lb):
                s.lines+=[x[4:] for x in lb]; s.st=lb[-1].split()[1]; return f"({a} {o} {b})",'boolean'
            v=s.fresh()
            if o=='&&':
                s.ln(f'let {v} ← (if {s.at(a)} = true then do'); s.lines+=lb; s.ln(f'    pure {s.at(b)}'); s.ln('  else pure false)')
            else:
                s.ln(f'let {v} ← (if {s.at(a)} = true then pure true else do'); s.lines+=lb; s.ln(f'    pure {s.at(b)})')
            s.effect(); return v,'boolean'
        if o in('==','!='):
            for x,y in((e[3],e[4]),(e[4],e[3])):
                if strip(y)[0]=='null':
                    s.raw=True; v,t=s.ex(x); s.raw=False
                    return (f'({s.at(v)}.isNone)' if o=='==' else f'({s.at(v)}.isSome)'),'boolean'
        (a,ta),(b,tb)=s.args([e[3],e[4]])
        return s.arith(o,a,ta,b,tb,e[1])
    def arith(s,o,a,ta,b,tb,line):
        A,B=s.at(a),s.at(b)
        h=s.cfg.get('arith')
        if h:
            r=h(s,o,A,ta,B,tb)
            if r is not None: return r
        if o in('+','-','*'): 
            if 'String' in(ta,tb): raise Unsupported('string')
            return f'(i32 ({A} {o} {B}))','int'
        if o=='/':
            return f'(i32 (Int.tdiv {A} {B}))','int'
        if o=='<<': return f'(shl32 {A} {B})','int'
        if o=='>>': return f'(shr32 {A} {B})','int'
        if o=='&' and ta=='int': return f'(and32 {A} {B})','int'
        if o in('<','>'): return f'(decide ({A} {o} {B}))','boolean'
        if o in('<=','>='): return f"(decide ({A} {'≤' if o=='<=' else '≥'} {B}))",'boolean'
        if o in('==','!='):
            if ta=='boolean': return f'({A} {o} {B})','boolean'
            return f"(decide ({A} {'=' if o=='==' else '≠'} {B}))",'boolean'
        raise Unsupported(f'operator {o} on {ta},{tb} line {line}')
    # lvalues: rdlv reads and remembers the evaluated index, wrlv writes back
    def rdlv(s,t):
        if t[0]=='index':
            base=strip(t[2]); i,_=s.ex(t[3])
            if not i.replace('_','').isalnum(): i,_=s.purebind(i,'int')
            s.lv=('index',base,i)
            return s.rdat(base,i)
        if t[0]=='field': s.lv=t; return s.ex(t)
        s.lv=t; return s.ex(t)
    def wrlv(s,v,ty):
        t=s.lv
        if t[0]=='index': s.wrat(t[1],t[2],v); return
        s.store(t,v)
    def isfieldarr(s,b):
        if b[0]=='name' and b[2] not in s.locals and b[2] in s.fields: return b[2]
        if b[0]=='field' and strip(b[2])[0]=='this': return b[3]
        return None
    def rdat(s,b,i):
        f=s.isfieldarr(b)
        if f:
            t=s.fields[f].type
            if f in s.cfg.get('nullable',()):
                c,_=s.bind(f'deref {s.state()}.{s.fpath(f)}',t); return s.bind2(f'rdA {c} {s.at(i)}',t[:-2])
            return s.bind2(f'rd {s.getter(f)} {s.at(i)}',t[:-2])
        a,t=s.ex(b)
        return s.bind2(f'rdA {s.at(a)} {s.at(i)}',t[:-2])
    def bind2(s,m,ty): # a read: does not invalidate the cached state
        v=s.fresh(); s.ln(f'let {v} ← {m}'); return v,ty
    def getter(s,f):
        h=s.cfg.get('arraymem',{}).get(f)
        if h: return h[0]
        p=s.fpath(f)
        return f"{s.cfg['struct']}.{p}" if '.' not in p else f'(fun self => self.{p})'
    def wrat(s,b,i,v):
        f=s.isfieldarr(b)
        if f:
            if f in s.cfg.get('nullable',()):
                c,_=s.bind(f'deref {s.state()}.{s.fpath(f)}',''); c2,_=s.bind(f'wrA {c} {s.at(i)} {s.at(v)}','')
                s.setfield(f,f'some {c2}'); return
            h=s.cfg.get('arraymem',{}).get(f); put=h[1] if h else f'(fun self a => {{ self with {s.fpath(f)} := a }})'
            s.ln(f'wr {s.getter(f)} {put} {s.at(i)} {s.at(v)}'); s.effect(); return
        if b[0]=='name' and b[2] in s.locals:
            if b[2] in s.aliases: raise Unsupported('write through an alias '+b[2])
            s.ln(f'let {s.lname(b[2])} ← wrA {s.lname(b[2])} {s.at(i)} {s.at(v)}'); return
        if b[0]=='index': # two-dimensional: chunks[chunk][offset] = v
            f=s.isfieldarr(strip(b[2])); 
            if f and s.row is not None:
                r,ri=s.row
                n,_=s.bind(f'wrA {r} {s.at(i)} {s.at(v)}','')
                s.ln(f'wr {s.getter(f)} (fun self a => {{ self with {s.fpath(f)} := a }}) {s.at(ri)} {n}'); s.effect(); return
        raise Unsupported('array write')
    def index(s,e):
        b=strip(e[2])
        i,_=s.ex(e[3]) if b[0]!='index' else (None,None)
        if b[0]=='index':
            r,t=s.ex(b); i,_=s.ex(e[3]); return s.bind2(f'rdA {s.at(r)} {s.at(i)}',t[:-2])
        return s.rdat(b,i)
    def store(s,t,v):
        if t[0]=='name' and t[2] in s.locals: s.ln(f'let {s.lname(t[2])} := {v}'); return
        n=t[2] if t[0]=='name' else t[3]
        if n in s.fields:
            w=s.cfg.get('fieldwrite',{}).get(n)
            if w: s.ln(w(v)); s.effect()
            elif n in s.cfg.get('nullable',()) and not v.startswith('none'): s.setfield(n,f'some {s.at(v)}')
            else: s.setfield(n,v)
            return
        raise Unsupported('store '+str(t))
    def assign(s,e):
        o,t,r=e[2],strip(e[3]),e[4]
        if o:
            old,ty=s.rdlv(t)
            if s.has_assign(r): old,ty=s.purebind(old,ty)
            lv=s.lv; v,tv=s.ex(r); s.lv=lv
            n,_=s.arith(o,old,ty,v,tv,e[1]); n,_=s.purebind(n,ty); s.wrlv(n,ty); return n,ty
        if t[0]=='index':
            b=strip(t[2]); s.row=None
            if b[0]=='index':
                ri,_=s.ex(b[3]); row,_=s.rdat(strip(b[2]),ri)
            i,_=s.ex(t[3])
            if s.has_assign(r) and not i.replace('_','').isalnum(): i,_=s.purebind(i,'int')
            v,tv=s.ex(r)
            if v=='NULL': v=s.dflt('null')
            if b[0]=='index': s.row=(row,ri)
            s.wrat(b,i,v); return v,tv
        v,ty=s.ex(r)
        if ty=='null': v='none'
        if t[0]=='name' and t[2] in s.locals: s.ln(f'let {s.lname(t[2])} := {v}'); return s.lname(t[2]),s.locals[t[2]]
        if not v.replace('_','').isalnum(): v,_=s.purebind(v,ty)
        if ty.endswith('?'): s.setfield(t[2] if t[0]=='name' else t[3],v); return v,ty
        s.store(t,v); return v,ty
    # ---------- calls
    def call(s,e):
        q,n,a=e[2],e[3],e[4]
        if q is not None: q=strip(q)
        r=s.cfg['external'](s,e,q,n,a)
        if r is not None: return r
        if q is None or q[0]=='this':
            m=s.lookup(n,len(a))
            if m is None: raise Unsupported(f'call {n}/{len(a)} line {e[1]}')
            return s.invoke(m,a)
        if q[0]=='name' and q[2]==s.consumer and n=='accept':
            v,t=s.ex(a[0]); x=s.fresh(); s.ln(f'let {x} ← consumer {s.at(v)}'); s.effect()
            s.ln(f'let acc := acc ++ [{x}]'); return '()','void'
        raise Unsupported(f'call {n} line {e[1]}')
    def invoke(s,m,a):
        name=s.names[id(m)]; drop=s.cfg.get('dropparams',lambda m:set())(m)
        vals=a if a and isinstance(a[0],tuple) and len(a[0])==2 and isinstance(a[0][0],str) and not isinstance(a[0][1],int) else None
        if vals is None:
            es=[x for x,(t,p) in zip(a,m.params) if p not in drop]
            vals=s.args(es)
        ps=[(t,p) for t,p in m.params if p not in drop]
        args=[]
        for (v,t),(pt,p) in zip(vals,ps):
            if s.is_consumer(pt): v='consumer'
            if v=='NULL': v=s.dflt('null')
            args.append(s.at(v))
        call=' '.join([name]+s.cfg.get('ctxargs',[])+(['fuel'] if s.needs_fuel(m) else [])+(['depth'] if m is s.m else [])+args)
        if m is s.m: s.rec=True
        w=s.written_params(m)
        if w:
            i=[p for t,p in m.params].index(next(iter(w))); tgt=strip(a[i]) if vals is not a else None
            if tgt is None: raise Unsupported('written arg')
            if tgt[0]=='name' and tgt[2] in s.locals: s.ln(f'let {s.lname(tgt[2])} ← {call}')
            else:
                v,_=s.bind(call,''); s.store(tgt,v)
            s.effect(); return '()','void'
        if any(s.is_consumer(t) for t,p in m.params):
            x=s.fresh(); s.ln(f'let {x} ← {call}'); s.effect(); s.ln(f'let acc := acc ++ {x}'); return '()','void'
        if m.ret=='void': s.ln(call); s.effect(); return '()','void'
        return s.bind(call,m.ret)
    # ---------- statements
    EXC={'IllegalArgumentException':'illegalArgument','IllegalStateException':'illegalState','NoSuchElementException':'noSuchElement','RuntimeException':'runtime','UnsupportedOperationException':'unsupported','NullPointerException':'nullPointer','ConcurrentModificationException':'concurrentModification','InvalidEntryException':'invalidEntry','RangeCheckException':'rangeCheck','InitializationException':'initialization','KeyNotFoundException':'keyNotFound','ResizeException':'resize'}
    def throwexp(s,e):
        e=strip(e)
        if e[0]=='new': return s.EXC[e[2].split('.')[-1]]
        if e[0]=='call' and e[3]=='cannotResize': return 'resize'
        if e[0]=='call' and e[3]=='invalidEntry': return 'invalidEntry'
        raise Unsupported('throw')
    def stmts(s,ss,k):
        """emit ss, then k() emits what follows if control reaches the end"""
        if not ss: k(); return
        x,rest=ss[0],ss[1:]
        op=x[0]
        if op=='block':
            s.stmts(x[2]+rest,k); return
        if op=='decl':
            _,line,t,n,init=x
            if init is not None:
                v,tv=s.ex(init); 
                ty=tv if t=='var' else t
                if v=='NULL': v=s.dflt('null')
                b=strip(init)
                if s.isfieldarr(b) or (b[0]=='name' and b[2] in s.locals and ty.endswith('[]')): s.aliases.add(n)
                s.ln(f'let {s.lname(n)} := {v}')
            else:
                ty=t
                s.ln(f'let {s.lname(n)} := {s.dflt(t)}')
            s.locals[n]=ty; s.order.append(n)
            s.stmts(rest,k); return
        if op=='expr':
            e=strip(x[2])
            if e[0]=='incdec': e=('incdec',e[1],e[2],True,e[4])
            n0=len(s.lines)
            v,t=s.ex(e)
            s.stmts(rest,k); return
        if op=='return':
            if x[2] is None: s.ret('()' if not s.acc else 'acc')
            else:
                v,t=s.ex(x[2]);
                if v=='NULL': v=s.dflt('null')
                s.ret(v)
            return
        if op=='throw': s.ln(f'JM.throw .{s.throwexp(x[2])}'); return
        if op=='break': s.brk(); return
        if op=='continue': s.cont(); return
        if op=='if': s.ifstmt(x,rest,k); return
        if op=='for': s.loop(x,rest,k); return
        raise Unsupported(op)
    def scoped(s,f):
        """run f in a nested block scope"""
        sv=(dict(s.locals),list(s.order),s.st,set(s.aliases)); s.ind+=1; f(); s.ind-=1; st=s.st
        s.locals,s.order,s.st,s.aliases=sv; return st
    def ifstmt(s,x,rest,k):
        _,line,c,a,b=x
        cv,_=s.ex(c)
        if not s.jumps(a) and not s.jumps(b):
            av=s.assigned(a)|s.assigned(b)
            vs=[n for n in s.order if n in av]
            tup='()' if not vs else (s.lname(vs[0]) if len(vs)==1 else '('+', '.join(s.lname(v) for v in vs)+')')
            pre='' if not vs else f'let {tup} ← '
            s.ln(f'{pre}(if {s.at(cv)} = true then do'); s.ind+=1
            s.scoped(lambda:s.stmts(a,lambda:s.ln(f'pure {tup}')))
            s.ind-=1
            if b:
                s.ln('  else do'); s.ind+=1
                s.scoped(lambda:s.stmts(b,lambda:s.ln(f'pure {tup}'))); s.ind-=1
            else: s.ln(f'  else pure {tup}')
            s.lines[-1]+=')'
            s.effect()
            s.stmts(rest,k); return
        s.ln(f'if {s.at(cv)} = true then do')
        s.scoped(lambda:s.stmts(a if s.abrupt(a) else a+rest,k))
        s.ln('else do')
        s.scoped(lambda:s.stmts(b if s.abrupt(b) else b+rest,k))
    def loop(s,x,rest,k):
        _,line,init,c,upd,body=x
        outer=dict(s.locals); oorder=list(s.order)
        # init
        def emit_init(ss):
            for st in ss:
                if st[0]=='decl': 
                    v,tv=s.ex(st[4]) if st[4] is not None else (s.dflt(st[2]),st[2])
                    s.locals[st[3]]=st[2]; s.order.append(st[3]); s.ln(f'let {s.lname(st[3])} := {v}')
                else: s.ex(st[2])
        emit_init(init)
        av=s.assigned([c]+upd+body)
        lv=[n for n in s.order if n in av]
        us=s.used([c]+upd+body)
        fv=[n for n in s.order if n in us and n not in av]
        outv=[n for n in lv if n in outer]
        s.loops+=1; name=f'{s.names[id(s.m)]}_loop{s.loops}'
        rets=s.returns(body)
        tt=lambda vs:'Unit' if not vs else ' × '.join(s.vtype(v) for v in vs)
        tup=lambda vs:'()' if not vs else (s.lname(vs[0]) if len(vs)==1 else '('+', '.join(s.lname(v) for v in vs)+')')
        rty=tt(outv)
        if rets: rty=f'Flow {s.at(s.rtype)} {s.at(rty)}'
        ctx=s.cfg.get('ctxargs',[])
        inner_fuel=s.body_fuel([c]+upd+body)
        fa=(['fuel'] if inner_fuel else [])
        callp=' '.join([name]+ctx+fa+[s.lname(v) for v in fv])
        # body of the auxiliary definition
        save=(s.lines,s.ind,s.st,s.ret,s.brk,s.cont,dict(s.locals),list(s.order),set(s.aliases))
        s.lines=[]; s.ind=2; s.st=None
        oldret=s.ret
        s.ret=lambda v:s.ln(f'pure (.ret {s.at(v)})')
        fin=lambda:s.ln('pure '+(f'(.next {tup(outv)})' if rets else tup(outv)))
        s.brk=fin
        again=lambda:s.ln(' '.join([callp,'n']+[s.lname(v) for v in lv]))
        def endbody():
            s.stmts(upd,again)
        s.cont=endbody
        cc=strip(c)
        if cc[0]=='bool' and cc[2]: s.stmts(body,endbody)
        else:
            cv,_=s.ex(c)
            s.ln(f'if {s.at(cv)} = true then do')
            s.scoped(lambda:s.stmts(body,endbody))
            s.ln('else do'); s.ind+=1; fin(); s.ind-=1
        bl=s.lines
        s.lines,s.ind,s.st,s.ret,s.brk,s.cont,s.locals,s.order,s.aliases=save
        bind=' '.join([s.cfg.get('binders','')]+(['(fuel : Nat)'] if inner_fuel else [])+[f'({s.lname(v)} : {s.vtype(v)})' for v in fv]).strip()
        if s.acc: bind=('{β : Type} '+bind)
        arrows=' → '.join(['Nat']+[s.vtype(v) for v in lv]+[f"JM {s.cfg['state']} {s.at(rty)}"])
        pats=lambda z:', '.join([z]+(['_']*len(lv) if z=='0' else [s.lname(v) for v in lv]))
        s.aux.append([f'/-- {s.src}:{line}, the loop. -/',f'def {name} {bind} :'.replace('  ',' '),f'    {arrows}',f'  | {pats("0")} => JM.throw .diverge',f'  | {pats("n + 1")} => do']+bl)
        # the call
        call=' '.join([callp,'fuel']+[s.lname(v) for v in lv])
        if not rets:
            pre='' if not outv else f'let {tup(outv)} ← '
            s.ln(pre+call); s.effect()
            s.locals,s.order=outer,oorder
            s.stmts(rest,k)
        else:
            r=s.fresh('r'); s.ln(f'let {r} ← {call}'); s.effect()
            s.ln(f'match {r} with')
            s.ln('| .ret v => '); s.ind+=1; s.ret('v'); s.ind-=1
            x=s.lines.pop(); s.lines[-1]+=x.strip()
            s.locals,s.order=outer,oorder
            inf=cc[0]=='bool' and cc[2] and not s.has_break(body)
            s.ln(f"| .next {tup(outv) if outv else '_'} => do")
            if inf: s.ind+=1; s.ln('JM.throw .diverge'); s.ind-=1
            else: s.scoped(lambda:s.stmts(rest,k))
    def body_fuel(s,ss):
        r=[False]
        def f(n):
            if n[0]=='for': r[0]=True
            if n[0]=='call' and (n[2] is None or n[2][0]=='this'):
                t=s.lookup(n[3],len(n[4]))
                if t and s.names[id(t)] not in s.skip and s.needs_fuel(t): r[0]=True
            if n[0]=='supercall':
                t=s.lookup(n[2],len(n[3]),cls=s.m.cls)
                if t and s.needs_fuel(t): r[0]=True
            if n[0]=='call' and s.ext_fuel(n): r[0]=True
        walk(ss,f); return r[0]
    def vtype(s,v):
        if v=='acc': return '(List β)'
        t=s.locals[v]
        if s.is_consumer(t): return s.ctype(t)
        return s.ltype(t)
    def ctype(s,t):
        return f"({s.cfg['consumes'](t,s.m)} → JM {s.cfg['state']} β)"
    def method(s,m,src):
        s.m=m; s.src=src; s.lines=[]; s.ind=1; s.cnt=0; s.loops=0; s.st=None; s.aux=[]; s.aliases=set(); s.row=None; s.rec=False
        drop=s.cfg.get('dropparams',lambda m:set())(m)
        ps=[(t,p) for t,p in m.params if p not in drop]
        s.locals={}; s.order=[]; s.consumer=None; s.acc=False
        w=s.written_params(m)
        for t,p in ps:
            if s.is_consumer(t): s.consumer=p; s.acc=True
            s.locals[p]=t; s.order.append(p)
        if s.consumer: s.cfg.setdefault('lname',{})[s.consumer]='consumer'
        s.rtype='Unit' if m.ret=='void' else s.ltype(m.ret)
        if s.acc: s.rtype='(List β)'
        if w: s.rtype=s.ltype([t for t,p in ps if p in w][0])
        s.ret=lambda v:s.ln(f'pure {s.at(v)}')
        s.brk=s.cont=None
        if s.acc:
            s.locals['acc']='acc'; s.order.append('acc'); s.ln('let acc : List β := []')
        end=(lambda:s.ln('pure acc')) if s.acc else ((lambda:s.ln(f'pure {s.lname(next(iter(w)))}')) if w else (lambda:s.ln('pure ()')))
        if w: s.ret=lambda v:s.ln(f'pure {s.lname(next(iter(w)))}')
        s.stmts(m.body,end)
        name=s.names[id(m)]
        fuel=s.needs_fuel(m)
        bind=[s.cfg.get('binders','')]+(['(fuel : Nat)'] if fuel else [])
        for t,p in ps: bind.append(f'({s.lname(p)} : {s.ctype(t) if s.is_consumer(t) else s.ltype(t)})')
        if s.acc: bind=['{β : Type}']+bind
        out=[]
        for a in s.aux: out+=a+['']
        if s.rec: # a method that calls itself: at most `depth` nested calls
            n=len(ps); b0=bind[:len(bind)-n]
            arrows=' → '.join(['Nat']+[s.ltype(t) for t,p in ps]+[f"JM {s.cfg['state']} {s.at(s.rtype)}"])
            out+=[f'/-- {src}:{m.line0}-{m.line1} `{m.name}`, which calls itself: at most `depth` nested calls. -/',f"def {name} {' '.join(x for x in b0 if x)} :",f'    {arrows}',f"  | {', '.join(['0']+['_']*n)} => JM.throw .diverge",f"  | {', '.join(['depth + 1']+[s.lname(p) for t,p in ps])} => do"]+['  '+l for l in s.lines]+['']
            return out
        out+=[f'/-- {src}:{m.line0}-{m.line1} `{m.name}`. -/',f"def {name} {' '.join(x for x in bind if x)} : JM {s.cfg['state']} {s.rtype} := do"]+s.lines+['']
        return out
    def order_methods(s,ms):
        done=[]; seen=set()
        def visit(m):
            if id(m) in seen: return
            seen.add(id(m))
            def f(n):
                t=None
                if n[0]=='call' and (n[2] is None or n[2][0]=='this'): t=s.lookup(n[3],len(n[4]))
                if n[0]=='supercall': t=s.lookup(n[2],len(n[3]),cls=m.cls)
                if t and t is not m and s.names[id(t)] not in s.skip: visit(t)
            walk(m.body,f); done.append(m)
        for m in ms: visit(m)
        return done
