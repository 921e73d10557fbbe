"""Second translator: the static methods, constants and lambdas of the classes in `types` and the class
`Snowflake`.  Here every primitive type keeps its width: boolean is Bool, byte/short/char/int/long are
bit vectors of 8/16/16/32/64 bits, float and double are their bits; promotions, casts, boxing and unboxing are
made explicit.  A method that can throw becomes an `Except Err`, one with a byte[] a `JM Codec.Bytes`, one of
Snowflake a `JM Snowflake`."""
import re
from gen import Unsupported,strip

W={'byte':8,'short':16,'char':16,'int':32,'long':64,'float':32,'double':64}
INTS=['byte','short','char','int','long']
BOX={'Byte':'byte','Short':'short','Integer':'int','Long':'long','Float':'float','Double':'double','Character':'char','Boolean':'boolean'}
ERR={'IllegalArgumentException':'illegalArgument','IllegalStateException':'illegalState'}
class V:
    """a translated expression: term, Java type, value if it is a literal"""
    def __init__(s,t,ty,lit=None): s.t,s.ty,s.lit=t,ty,lit

class Prims:
    def __init__(s,classes,refs,enums,snow=None):
        s.classes={c.name:c for c in classes}; s.refs=refs; s.enums=enums; s.snow=snow; s.done={}; s.out=[]; s.open=None
    def put(s,cn,lines):
        if s.open!=cn:
            if s.open: s.out+=[f'end {s.open}','']
            s.out+=[f'namespace {cn}','']; s.open=cn
        s.out+=lines
    def close(s):
        if s.open: s.out+=[f'end {s.open}','']; s.open=None
        return s.out
    # ---- types
    def lean(s,t,c=None):
        if t=='boolean': return 'Bool'
        if t in W: return f'BitVec {W[t]}'
        if t=='ref': return 'Option Nat'
        if t=='String': return 'Option Convert.JString'
        if t=='Object' or t in BOX: return 'Convert.JObj'
        if t=='LocalDate': return 'Dates.LDate'
        if t=='LocalTime': return 'Dates.LTime'
        if t=='Date': return 'Dates.SqlDate'
        if t=='void': return 'Unit'
        if t=='LongSupplier': return 'List (BitVec 64)'
        if t=='Supplier': return 'BitVec 32'
        if t=='cmp': return 'Option Nat → Option Nat → Except Err (BitVec 32)'
        if t=='CompareMethod': return 'Cmp.CompareMethod'
        if t=='PredicateMethod': return 'Cmp.PredicateMethod'
        if t=='long[]': return 'List (BitVec 64)'
        raise Unsupported('type '+t)
    def ty(s,t,refmode):
        if t in('String','Object') and refmode: return 'ref'
        if t=='Comparable' and refmode: return 'ref'
        if t=='Comparator': return 'cmp'
        return t
    # ---- members
    def need(s,cn,name,n=None):
        """translate a member of a class (once); returns its record"""
        c=s.classes.get(cn)
        if c is None: return None
        if name=='<init>':
            m=[m for m in c.ctors if len(m.params)==n][0]; key=(cn,name,n)
            if key not in s.done: s.done[key]=M(s,c).ctor(m)
            return s.done[key]
        ms=[m for m in c.methods if m.name==name and (n is None or len(m.params)==n)]
        fs=[f for f in c.fields if f.name==name]
        if ms: key=(cn,name,len(ms[0].params))
        elif fs: key=(cn,name)
        else: return None
        if key in s.done:
            if s.done[key] is None: raise Unsupported('recursion '+name)
            return s.done[key]
        s.done[key]=None
        r=M(s,c).method(ms[0]) if ms else M(s,c).field(fs[0])
        s.done[key]=r; return r

class Rec:
    def __init__(s,name,params,ret,mode,extra,fuel=False): s.name,s.params,s.ret,s.mode,s.extra,s.fuel=name,params,ret,mode,extra,fuel

class M:
    """translation of one member"""
    def __init__(s,p,c): s.p,s.c=p,c; s.lines=[]; s.n=0; s.eff=False; s.loc={}; s.sig=None; s.mode=None; s.fuel=False; s.aux=[]; s.classvar={}
    def fresh(s): s.n+=1; return f'x{s.n}'
    def ln(s,l): s.lines.append(l)
    def bind(s,t,ty):
        s.eff=True; x=s.fresh(); s.ln(f'let {x} ← {t}'); return V(x,ty)
    # ---- conversions
    def conv(s,v,to,cast=False):
        f=v.ty
        if f==to: return v
        if to in BOX:
            if f==BOX[to]: return V({'boolean':f'(.bool {v.t})','char':f'(.char {v.t})'}.get(f,f'(.num (.{f} {v.t}))'),to)
            if f=='Object' and cast: return V(s.cls(v,to),to)
        if to=='Object':
            if f in W or f=='boolean': return s.conv(s.conv(v,{b:a for a,b in BOX.items()}[f]),'Object')
            if f in BOX: return V(v.t,to)
            if f=='String': return V(f'(Jdk.ofString {v.t})',to)
        if f in BOX and (to==BOX[f] or not cast):
            a=BOX[f]; u=s.bind(f"Jdk.unbox{f} {v.t}",a); return s.conv(u,to,cast)
        if f in W and to in W:
            if v.lit is not None and f in('int','long') and to in INTS:
                if not cast and W[to]<W[f] and not -(1<<(W[to]-1))<=v.lit<(1<<W[to]): raise Unsupported('literal')
                return V(f'{v.lit % (1<<W[to])}#{W[to]}',to,v.lit)
            if f in INTS and to in INTS:
                a,b=W[f],W[to]
                if b<a or f==to or (f!='char' and to=='char' and a==b) or (f=='char' and to=='short'):
                    if not cast: raise Unsupported(f'implicit {f} to {to}')
                    return V(v.t if a==b else f'({v.t}.setWidth {b})',to)
                if to=='char' and not cast: raise Unsupported('implicit char')
                return V(f'({v.t}.setWidth {b})' if f=='char' else f'({v.t}.signExtend {b})',to)
            if f in INTS: 
                x=f'({v.t}.setWidth 32)' if f=='char' else v.t
                return V(f"(Convert.intTo{to.capitalize()} {x}.toInt)",to)
            if f=='float' and to=='double': return V(f'(Convert.floatToDouble {v.t})',to)
            if not cast: raise Unsupported(f'implicit {f} to {to}')
            if f=='double' and to=='float': return V(f'(Convert.doubleToFloat {v.t})',to)
            if to=='long': return V(f'(Convert.{f}ToLong {v.t})',to)
            u=V(f'(Convert.{f}ToInt {v.t})','int'); return u if to=='int' else s.conv(u,to,True)
        if f=='dval' and to in('int','long') and cast: return V(f'(BitVec.ofInt {W[to]} (Convert.toIntegral 1074 {W[to]} {v.t}))',to)
        if f=='Object' and cast and to in('Number','String','LocalDate','LocalTime'): return V(s.cls(v,to),to)
        if f=='null' and to in('String','ref'): return V('none',to)
        if f=='null' and to=='Object': return V('.null',to)
        if f=='ref' and to=='ref': return v
        raise Unsupported(f'{f} to {to}')
    def cls(s,v,to):
        return s.bind(f'Jdk.as{to} {v.t}',to).t
    def prom(s,v):
        if v.ty in BOX: v=s.conv(v,BOX[v.ty])
        return s.conv(v,'int') if v.ty in('byte','short','char') else v
    def both(s,a,b):
        a,b=[s.conv(v,BOX[v.ty]) if v.ty in BOX else v for v in(a,b)]
        if 'dval' in(a.ty,b.ty):
            f=lambda v:v if v.ty=='dval' else V(f'(Floats.decode64 {s.conv(v,"double").t})','dval')
            return f(a),f(b)
        for t in('double','float','long','int'):
            if t in(a.ty,b.ty) or t=='int' and a.ty in W and b.ty in W: return s.conv(a,t),s.conv(b,t)
        raise Unsupported(f'{a.ty} with {b.ty}')
    # ---- constant expressions (shift counts)
    def const(s,e):
        e=strip(e)
        if e[0]=='num': return int(e[2].rstrip('lL'),0)
        if e[0]=='name':
            f=[f for f in s.c.fields if f.name==e[2]]
            if f and f[0].static: return s.const(f[0].init)
        if e[0]=='bin' and e[2] in '+-*': return eval(f'{s.const(e[3])}{e[2]}{s.const(e[4])}')
        raise Unsupported('constant')
    # ---- expressions
    def ex(s,e):
        e=strip(e); k=e[0]
        if k=='num':
            t=e[2]
            if t[-1] in 'lL' : n=int(t[:-1],0); return V(f'{n}#64','long',n)
            if re.fullmatch(r'0[xX][0-9a-fA-F]+|\d+',t): n=int(t,0); return V(f'{n}#32','int',n)
            if t=='1e-10': return V('0x3DDB7CDFD9D7BDBB#64','double')
            raise Unsupported('number '+t)
        if k=='chr' and re.fullmatch(r"'[a-z]'",e[2]): return V(f'{ord(e[2][1])}#16','char')
        if k=='bool': return V('true' if e[2] else 'false','boolean')
        if k=='null': return V('none','null')
        if k=='name':
            n=e[2]
            if n in s.loc: return V(n,s.loc[n])
            return s.constant(s.c.name,n)
        if k=='field' and e[2][0]=='this': return s.constant(s.c.name,e[3])
        if k=='field' and e[2][0]=='name': return s.constant(e[2][2],e[3])
        if k=='un':
            v=s.ex(e[3])
            if e[2]=='!': return V(f'(!{v.t})','boolean')
            v=s.prom(v)
            if v.lit is not None and e[2]=='-': return V(f'(-{v.t})',v.ty)
            return V(f"({'~~~' if e[2]=='~' else '-'}{v.t})",v.ty)
        if k=='cast':
            t=s.p.ty(e[2],s.ref); v=s.ex(e[3])
            if v.ty in BOX and t in W: v=s.conv(v,BOX[v.ty])
            return s.conv(v,t,True)
        if k=='bin': return s.bin(e)
        if k=='tern':
            c=s.conv(s.ex(e[2]),'boolean'); n0=len(s.lines); a=s.ex(e[3]); b=s.ex(e[4])
            if len(s.lines)!=n0: raise Unsupported('effect in ?:')
            if a.ty!=b.ty: a,b=s.both(a,b)
            return V(f'(if {c.t} then {a.t} else {b.t})',a.ty)
        if k=='index':
            if s.ex(e[2]).ty!='byte[]': raise Unsupported('array')
            i=s.conv(s.prom(s.ex(e[3])),'int'); return s.bind(f'Codec.rdB {i.t}.toInt','byte')
        if k=='call': return s.call(e)
        raise Unsupported(k)
    def constant(s,cn,n):
        if s.p.snow and cn==s.c.name and n in s.p.snow:
            x=s.bind('get',''); return V(f'{x.t}.{n}','long')
        r=s.p.need(cn,n)
        if r is None or r.params is not None: raise Unsupported('name '+n)
        return V(f'{s.qual(cn)}{n}',r.ret)
    def qual(s,cn): return '' if cn==s.c.name else f'{cn}.'
    def bin(s,e):
        o=e[2]
        if o in('&&','||'):
            a=s.ex(e[3]); n0=len(s.lines); b=s.ex(e[4])
            if len(s.lines)==n0: return V(f'({a.t} {o} {b.t})','boolean')
            sub=s.lines[n0:]; del s.lines[n0:]
            x=s.fresh(); s.eff=True
            inner='(do '+'; '.join(sub+[f'pure {b.t}'])+')'
            s.ln(f"let {x} ← if {a.t} then {inner if o=='&&' else 'pure true'} else {'pure false' if o=='&&' else inner}")
            return V(x,'boolean')
        if o in('<<','>>','>>>'):
            a=s.prom(s.ex(e[3])); n=s.const(e[4])
            if not 0<=n<W[a.ty]: raise Unsupported('shift')
            return V(f'({a.t}.sshiftRight {n})' if o=='>>' else f"({a.t} {'<<<' if o=='<<' else '>>>'} {n})",a.ty)
        a=s.ex(e[3]); b=s.ex(e[4])
        if o in('==','!='):
            if 'null' in(a.ty,b.ty):
                v=b if a.ty=='null' else a
                if v.ty=='Object': return V(f"({v.t} {o} .null)",'boolean')
                if v.ty in('ref','String'): return V(f"({v.t} {o} none)",'boolean')
                raise Unsupported('null')
            if a.ty==b.ty=='ref': return V(f'({a.t} {o} {b.t})','boolean')
            if a.ty==b.ty=='boolean': return V(f'({a.t} {o} {b.t})','boolean')
            a,b=s.both(a,b)
            if a.ty in('int','long'): return V(f'({a.t} {o} {b.t})','boolean')
            d=s.dec(a),s.dec(b)
            return V(f"({'!' if o=='!=' else ''}{d[0]}.eq {d[1]})",'boolean')
        a,b=s.both(a,b)
        if o in('<','>','<=','>='):
            if a.ty in('int','long'): x,y,lt,le=a.t,b.t,'slt','sle'
            else: x,y,lt,le=s.dec(a),s.dec(b),'lt','le'
            if o in('>','>='): x,y=y,x
            return V(f"({x}.{lt if o in'<>' else le} {y})",'boolean')
        if a.ty=='double' and o=='-': return V(f'(Floats.sub64 {s.dec(a)} {s.dec(b)})','dval')
        if a.ty in('int','long'):
            if o in '+-*': return V(f'({a.t} {o} {b.t})',a.ty)
            if o in '&|^': return V(f'({a.t} {o*3} {b.t})',a.ty)
            if o in '/%':
                if b.lit in(None,0): raise Unsupported('division')
                return V(f"({a.t}.{'sdiv' if o=='/' else 'srem'} {b.t})",a.ty)
        raise Unsupported(f'{a.ty} {o} {b.ty}')
    def dec(s,v):
        return {'float':f'(Floats.decode32 {v.t})','double':f'(Floats.decode64 {v.t})','dval':v.t}[v.ty]
    def invoke(s,cn,r,args):
        ts=''
        for x in r.extra: ts+=' '+x; s.extra.add(x)
        if r.fuel: ts+=' fuel'; s.fuel=True
        for (t,_),a in zip([p for p in r.params if p[0]!='byte[]'],args):
            ts+=' '+s.conv(a,t).t
        term=f'{s.qual(cn)}{r.name}{ts}'
        if r.mode=='pure': return V(f'({term})',r.ret)
        if r.mode=='except' and s.mode in('bytes','snow'): raise Unsupported('mode')
        return s.bind(term,r.ret)
    def call(s,e):
        q=e[2] and strip(e[2]); n=e[3]; a=e[4]
        if q is None or (q[0]=='name' and q[2] in s.p.classes and q[2] not in s.loc):
            cn=s.c.name if q is None else q[2]
            r=s.p.need(cn,n,len(a))
            if r is None: raise Unsupported('call '+n)
            vs=[]
            for (t,_),x in zip(r.params,a):
                if t=='byte[]':
                    if strip(x)[0]!='name' or s.loc.get(strip(x)[2])!='byte[]': raise Unsupported('array argument')
                elif t=='cmp': vs.append(V(s.mref(strip(x)),'cmp'))
                else: vs.append(s.ex(x))
            return s.invoke(cn,r,vs)
        if q[0]=='name' and q[2] in s.loc and s.loc[q[2]]=='cmp' and n=='compare':
            vs=[s.conv(s.ex(x),'ref').t for x in a]; return s.bind(f'{q[2]} {vs[0]} {vs[1]}','int')
        if q[0]=='name' and q[2] not in s.loc and any(f.name==q[2] for f in s.c.fields):
            if q[2]=='clock' and n=='getAsLong': return s.bind('Jdk.getAsLong','long')
            r=s.p.need(s.c.name,q[2]); return s.invoke(s.c.name,r,[s.ex(x) for x in a])
        qn=q[2] if q[0]=='name' and q[2] not in s.loc else None
        if qn=='Math' and n=='abs':
            v=s.prom(s.ex(a[0])) 
            if v.ty=='dval': return V(f'{v.t}.abs','dval')
            return V({'int':f'(Jdk.absInt {v.t})','long':f'(Jdk.absLong {v.t})','float':f'(Floats.abs32 {v.t})','double':f'(Floats.abs64 {v.t})'}[v.ty],v.ty)
        if qn=='Math' and n=='signum':
            v=s.ex(a[0])
            if v.ty!='dval': raise Unsupported('signum')
            return V(f'(Jdk.signum {v.t})','dval')
        if qn=='Objects' and n=='equals':
            s.extra.add('J'); x,y=[s.conv(s.ex(z),'ref').t for z in a]; return V(f'(Jdk.objectsEquals J {x} {y})','boolean')
        if n=='hashCode' and q[0]=='call' and q[3]=='get' and q[2][0]=='name' and s.loc.get(q[2][2])=='Supplier': return V(q[2][2],'int')
        key=f'{qn}.{n}'
        if key in LIB:
            f,ps,r,eff=LIB[key]
            vs=[s.conv(s.ex(x),t) for x,t in zip(a,ps)]
            if not f: return V(vs[0].t,r)
            if 'env.' in f: s.extra.add('env')
            t=f+''.join(' '+v.t for v in vs)
            return s.bind(t,r) if eff else V(f'({t})',r)
        if qn is None or q[0]!='name' or s.loc.get(q[2]) is not None:
            if n=='isAssignableFrom' and q[0]=='field' and q[3]=='class' and strip(a[0])[0]=='name':
                o=s.classvar[strip(a[0])[2]]; return V(f'(Jdk.is{q[2][2]} {o})','boolean')
            v=s.ex(q)
            if v.ty=='Number' and re.fullmatch(r'(byte|short|int|long|float|double)Value',n): return s.bind(f'Jdk.{n} {v.t}',n[:-5])
            if v.ty=='String' and n=='length': return s.bind(f'Jdk.length {v.t}','int')
            if v.ty=='String' and n=='charAt': return s.bind(f'Jdk.charAt {v.t} {s.conv(s.ex(a[0]),"int").t}','char')
            if v.ty=='Object' and n=='toString': s.extra.add('env'); return s.bind(f'Jdk.toString env {v.t}','String')
            if v.ty=='ref' and n=='hashCode': s.extra.add('J'); return s.bind(f'Jdk.hashCode J {v.t}','int')
            if v.ty=='ref' and n=='compareTo': s.extra.add('J'); return s.bind(f'Jdk.compareTo J {v.t} {s.conv(s.ex(a[0]),"ref").t}','int')
            if v.ty in GET and n in GET[v.ty]: return V(f'(BitVec.ofInt 32 {v.t}.{GET[v.ty][n]})','int')
        raise Unsupported(f'call {qn}.{n}')
    def mref(s,e):
        if e[0]=='mref' and e[2][0]=='name' and e[2][2]=='String' and e[3] in('compareTo','compareToIgnoreCase'):
            s.extra.add('J'); return f'(Jdk.{e[3]} J)'
        raise Unsupported('method reference')
    # ---- statements
    def stmts(s,S):
        if not S: s.ln('pure ()' ); return
        h=S[0]; rest=S[1:]; k=h[0]
        if k=='block': return s.stmts(h[2]+rest)
        if k=='decl':
            e=h[4] and strip(h[4])
            if h[2]=='Class' and e[0]=='call' and e[3]=='getClass':
                o=s.ex(e[2]); s.eff=True; s.ln(f'Jdk.getClass {o.t}'); s.classvar[h[3]]=o.t; return s.stmts(rest)
            t=s.p.ty(h[2],s.ref); v=s.conv(s.ex(e),t); s.loc[h[3]]=t; s.ln(f'let {h[3]} := {v.t}'); return s.stmts(rest)
        if k=='expr': 
            s.assign(strip(h[2])); return s.stmts(rest)
        if k=='if':
            c=s.ex(h[2]); save=s.lines,dict(s.loc)
            out=[]
            for b in(h[3],h[4]):
                s.lines=[]; s.loc=dict(save[1]); s.stmts(b+rest); out.append(s.lines)
            s.lines=save[0]
            s.ln(f'if {c.t} then'); s.lines+=['  '+x for x in out[0]]; s.ln('else'); s.lines+=['  '+x for x in out[1]]
            return
        if k=='return': return s.ret(h[2])
        if k=='throw':
            e=strip(h[2]); s.eff=True
            s.ln(f"{'throw' if s.mode is None or s.mode=='except' else 'JM.throw'} Err.{ERR[e[2]]}"); return
        if k=='for' and not h[2] and not h[4]: return s.loop(h,rest)
        raise Unsupported(k)
    def assign(s,e):
        if e[0]=='call' and e[2] is None and e[3]=='this': raise Unsupported('this()')
        if e[0]!='assign': raise Unsupported('statement')
        t=strip(e[3])
        if t[0]=='index':
            i=s.conv(s.prom(s.ex(t[3])),'int'); v=s.conv(s.ex(e[4]),'byte'); s.eff=True
            if s.ex(t[2]).ty!='byte[]' or e[2]: raise Unsupported('array')
            s.ln(f'Codec.wrB {i.t}.toInt {v.t}'); return
        n=t[2] if t[0]=='name' else t[3]
        local=t[0]=='name' and n in s.loc
        ty=s.loc[n] if local else 'long'
        if e[2]: v=s.conv(s.bin(('bin',e[1],e[2],e[3],e[4])),ty,True)
        elif n=='clock' and not local:
            x=strip(e[4])
            if not(x[0]=='call' and x[3]=='requireNonNull' and strip(x[4][0])[0]=='name'): raise Unsupported('clock')
            v=V(strip(x[4][0])[2],'clock')
        else: v=s.conv(s.ex(e[4]),ty)
        if local: s.ln(f'let {n} := {v.t}')
        else:
            if not(s.p.snow and n in s.p.snow+['clock']): raise Unsupported('field '+n)
            s.eff=True; s.ln(f'modify fun self => {{ self with {n} := {v.t} }}')
    def loop(s,h,rest):
        # `while (c) { x = e; }` with one local variable
        if len(h[5])!=1 or h[5][0][0]!='expr': raise Unsupported('loop')
        a=strip(h[5][0][2])
        if a[0]!='assign' or a[2] or strip(a[3])[0]!='name': raise Unsupported('loop')
        x=strip(a[3])[2]
        if x not in s.loc: raise Unsupported('loop')
        save=s.lines; s.lines=[]; c=s.ex(h[3]); head=s.lines; s.lines=[]; s.assign(a); body=s.lines; s.lines=save
        T=s.p.lean(s.loc[x]); L=f'{s.mname}_loop'
        s.aux+=[f'/-- The loop at line {h[1]}. -/',f'def {L} : Nat → {T} → JM Snowflake ({T})','  | 0, _ => JM.throw .diverge',f'  | fuel + 1, {x} => do']+['    '+l for l in head]+[f'    if {c.t} then do']+['      '+l for l in body]+[f'      {L} fuel {x}','    else pure '+x,'']
        s.fuel=True; s.eff=True; s.ln(f'let {x} ← {L} fuel {x}'); s.stmts(rest)
    def ret(s,e):
        if e is None: s.ln('pure ()'); return
        e=strip(e)
        if e[0]=='tern':
            n0=len(s.lines),s.n
            try:
                v=s.conv(s.ex(e),s.rett); 
                if True: s.fin(v); return
            except Unsupported as u:
                if str(u)!='effect in ?:': raise
            del s.lines[n0[0]:]
            return s.stmts([('if',e[1],e[2],[('return',e[1],e[3])],[('return',e[1],e[4])])])
        if e[0]=='newarr' and len(e)==6 and e[2]=='long':
            s.fin(V('['+', '.join(s.conv(s.ex(x),'long').t for x in e[5])+']','long[]')); return
        if e[0]=='new' and s.mode=='snow':
            r=s.p.need(s.c.name,'<init>',len(e[3])); s.eff=True
            s.ln(r.name+''.join(' '+s.conv(s.ex(x),t).t for x,(t,_) in zip(e[3],r.params))); return
        s.fin(s.conv(s.ex(e),s.rett))
    def fin(s,v): s.ln('@'+v.t)
    # ---- members
    def method(s,m):
        p=s.p; s.ref=(s.c.name,m.name) in p.refs or (s.c.name,'*') in p.refs
        s.extra=set(); s.mname=m.name; over=len([x for x in s.c.methods if x.name==m.name])>1
        name=m.name+(str(len(m.params)) if over else ''); s.mname=name
        ps=[(p.ty(t,s.ref),n) for t,n in m.params]
        s.loc={n:t for t,n in ps}; s.rett=p.ty(m.ret,s.ref)
        if any(t=='byte[]' for t,_ in ps): s.mode='bytes'
        elif p.snow and(not m.static or m.ret==s.c.name): s.mode='snow'
        if m.ret==s.c.name: s.rett='void'
        e=strip(m.body[0][2]) if m.body[0][0]=='return' and m.body[0][2] else None
        if e and e[0]=='switch': return s.switch(m,e,ps)
        s.stmts(m.body)
        return s.emit(name,ps,s.rett,f'{s.c.name}.java:{m.line0}-{m.line1} `{m.name}`')
    def ctor(s,m):
        s.ref=False; s.extra=set(); s.mode='snow'; s.mname=name=f'init{len(m.params)}'
        s.loc={n:t for t,n in m.params}; s.rett='void'
        h=strip(m.body[0][2]) if m.body[0][0]=='expr' else None
        if h and h[0]=='call' and h[2] is None and h[3]=='this':
            r=s.p.need(s.c.name,'<init>',len(h[4])); s.eff=True
            s.ln(r.name+''.join(' '+s.conv(s.ex(x),t).t for x,(t,_) in zip(h[4],r.params)))
            if len(m.body)>1: raise Unsupported('constructor')
        else:
            for f in s.c.fields:
                if not f.static and f.init is not None: s.assign(('assign',f.line,'',('field',f.line,('this',f.line),f.name),f.init))
            s.stmts(m.body)
        return s.emit(name,m.params,'void',f'{s.c.name}.java:{m.line0}-{m.line1}, constructor')
    def emit(s,name,ps,ret,doc):
        p=s.p
        if s.mode is None: s.mode='except' if s.eff else 'pure'
        s.lines=[re.sub(r'\b(0x[0-9A-F]+#\d+|\d+#\d+)\.',r'(\1).',l) for l in s.lines]
        if s.mode=='pure': body=[l.replace('@','',1) if l.lstrip().startswith('@') else l for l in s.lines]
        else: body=[l.replace('@','pure ',1) if l.lstrip().startswith('@') else l for l in s.lines]
        T=p.lean(ret); T=f'({T})' if ' ' in T else T
        R={'pure':p.lean(ret),'except':f'Except Err {T}','bytes':f'JM Codec.Bytes {T}','snow':f'JM Snowflake {T}'}[s.mode]
        bs=''
        if 'J' in s.extra: bs+=' {α : Type} (J : Jdk.Refs α)'
        if 'env' in s.extra: bs+=' (env : Jdk.Env)'
        if s.fuel: bs+=' (fuel : Nat)'
        bs+=''.join(f' ({n} : {p.lean(t)})' for t,n in ps if t!='byte[]')
        p.put(s.c.name,s.aux+[f'/-- {doc} -/',f"def {name}{bs} : {R} :={'' if s.mode=='pure' else ' do'}"]+['  '+l for l in body]+[''])
        return Rec(name,ps,ret,s.mode,sorted(s.extra),s.fuel)
    def switch(s,m,e,ps):
        p=s.p; en=p.enums[ps[0][0]]; seen=[]; rows=[]; dfl=False; x=None; recs=[]
        if len(m.body)!=1 or len(ps)!=1: raise Unsupported('switch')
        for labs,b in e[3]:
            if labs is None:
                t=b[1][0]
                if b[0]!='block' or t[0]!='throw': raise Unsupported('switch')
                dfl=ERR[strip(t[2])[2]]; continue
            for l in labs:
                k=strip(l)[2]; f=strip(b[1])[2]; r=p.need(s.c.name,f); recs.append(r); seen.append(k)
                rows.append((en[k],f))
        md=recs[0].mode if all(r.mode==recs[0].mode for r in recs) else 'except'
        ex=sorted(set(y for r in recs for y in r.extra))
        R=p.lean(recs[0].ret)
        inner=' → '.join(p.lean(t) for t,_ in recs[0].params)+' → '+(R if md=='pure' else f'Except Err ({R})')
        bs=''
        if 'J' in ex: bs=' {α : Type} (J : Jdk.Refs α)'
        out=[f'/-- {s.c.name}.java:{m.line0}-{m.line1} `{m.name}` -/',f'def {m.name}{bs} : {p.lean(ps[0][0])} → Except Err ({inner})']
        for k,f in rows:
            r=p.need(s.c.name,f)
            call=f+''.join(' '+y for y in r.extra)
            if md=='except' and r.mode=='pure': call=f'(fun a b => .ok ({call} a b))'
            out.append(f'  | .{k} => .ok '+(f'({call})' if ' ' in call and not call.startswith('(') else call))
        if set(seen)!=set(en): out.append(f'  | _ => .error .{dfl}')
        p.put(s.c.name,out+['']); return Rec(m.name,ps,'fn','pure',ex)
    def field(s,f):
        p=s.p; s.ref=(s.c.name,'*') in p.refs or (s.c.name,f.name) in p.refs; s.extra=set()
        ic=[c for c in s.c.inner if c.name==f.type]
        e=strip(f.init)
        if ic:
            (mn,rt,sp),=ic[0].sigs; s.rett=p.ty(rt,s.ref); ts=[p.ty(t,s.ref) for t,_ in sp]
            if e[0]=='lambda':
                ps=list(zip(ts,e[2])); s.loc={n:t for t,n in ps}
                if e[3][0]!='value': raise Unsupported('lambda')
                s.ret(e[3][1])
            elif e[0]=='mref':
                ns=['a','b','c'][:len(ts)]; ps=list(zip(ts,ns)); s.loc={n:t for t,n in ps}
                s.ret(('call',e[1],e[2],e[3],[('name',e[1],n) for n in ns]))
            else: raise Unsupported('field')
            return s.emit(f.name,ps,s.rett,f'{s.c.name}.java:{f.line} `{f.name}`')
        s.rett=f.type; s.fin(s.conv(s.ex(e),f.type))
        if s.eff: raise Unsupported('constant with effect')
        r=s.emit(f.name,[],f.type,f'{s.c.name}.java:{f.line} `{f.name}`'); r.params=None; return r

def lib(f,ps,r,eff=False): return (f,ps,r,eff)
LIB={'Long.compare':lib('Jdk.longCompare',['long','long'],'int'),'Float.compare':lib('Jdk.floatCompare',['float','float'],'int'),
 'Long.hashCode':lib('KeyTypes.longHash',['long'],'int'),'Double.hashCode':lib('KeyTypes.doubleHash',['double'],'int'),'Float.hashCode':lib('KeyTypes.floatHash',['float'],'int'),
 'Integer.parseInt':lib('Jdk.parseIntegral 32',['String'],'int',True),'Long.parseLong':lib('Jdk.parseIntegral 64',['String'],'long',True),
 'Short.parseShort':lib('Jdk.parseIntegral 16',['String'],'short',True),'Byte.parseByte':lib('Jdk.parseIntegral 8',['String'],'byte',True),
 'Boolean.parseBoolean':lib('Jdk.parseBoolean',['String'],'boolean'),
 'Float.parseFloat':lib('env.parseFloat',['String'],'float',True),'Double.parseDouble':lib('env.parseDouble',['String'],'double',True),
 'Integer.toString':lib('Jdk.intToString',['int'],'String'),
 'Double.doubleToRawLongBits':lib('',['double'],'long'),'Double.longBitsToDouble':lib('',['long'],'double'),
 'Float.floatToRawIntBits':lib('',['float'],'int'),'Float.intBitsToFloat':lib('',['int'],'float'),
 'LocalDate.of':lib('Jdk.dateOf',['int','int','int'],'LocalDate',True),'LocalTime.of':lib('Jdk.timeOf',['int','int','int'],'LocalTime',True)}
GET={'LocalDate':{'getYear':'year','getMonthValue':'month','getDayOfMonth':'day'},'LocalTime':{'getHour':'hour','getMinute':'minute','getSecond':'second'},'Date':{'getYear':'year','getMonth':'month','getDate':'date'}}
