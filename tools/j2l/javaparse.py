"""A parser for the subset of Java (and of the FreeMarker templates) used in /repo.
Produces plain tuples; every method remembers the lines it stands on."""
import re

TOK=re.compile(r'''\s+|//[^\n]*|/\*.*?\*/|(?P<num>0[xX][0-9a-fA-F_]+[lL]?|\d[\d_]*\.\d+(?:[eE][-+]?\d+)?[fFdD]?|\d[\d_]*[eE][-+]?\d+|\d[\d_]*[lLfFdD]?)|(?P<str>"(?:\\.|[^"\\])*")|(?P<chr>'(?:\\.|[^'\\])')|(?P<id>[A-Za-z_$][\w$]*)|(?P<op>>>>=|<<=|>>=|\.\.\.|->|::|\+\+|--|&&|\|\||==|!=|<=|>=|\+=|-=|\*=|/=|&=|\|=|\^=|%=|[-+*/%&|^~!<>=?:;,.(){}\[\]@])''',re.S)

class Tok:
    __slots__=('k','v','line')
    def __init__(s,k,v,line): s.k,s.v,s.line=k,v,line
    def __repr__(s): return f'{s.v}@{s.line}'

def lex(src):
    out=[]; pos=0; line=1
    while pos<len(src):
        m=TOK.match(src,pos)
        if not m: raise SyntaxError(f'line {line}: {src[pos:pos+30]!r}')
        if m.lastgroup: out.append(Tok(m.lastgroup,m.group(),line))
        line+=m.group().count('\n'); pos=m.end()
    out.append(Tok('eof','',line))
    return out

PRIM={'int','long','short','byte','char','boolean','float','double','void','var'}
MODS={'public','private','protected','static','final','abstract','synchronized','default','native','transient','volatile'}

class Method:
    def __init__(s,name,ret,params,body,static,line0,line1,cls):
        s.name,s.ret,s.params,s.body,s.static,s.line0,s.line1,s.cls=name,ret,params,body,static,line0,line1,cls
class Field:
    def __init__(s,name,type,init,static,line): s.name,s.type,s.init,s.static,s.line=name,type,init,static,line
class Class:
    def __init__(s,name,ext): s.name,s.ext,s.fields,s.methods,s.ctors,s.inner,s.sigs=name,ext,[],[],[],[],[]

class Parser:
    def __init__(s,src): s.t=lex(src); s.p=0
    @property
    def cur(s): return s.t[s.p]
    def at(s,v): return s.cur.v==v and s.cur.k in('op','id')
    def peek(s,n=1): return s.t[min(s.p+n,len(s.t)-1)]
    def next(s): t=s.cur; s.p+=1; return t
    def eat(s,v):
        if not s.at(v): raise SyntaxError(f'line {s.cur.line}: expected {v!r}, found {s.cur.v!r}')
        return s.next()
    def opt(s,v):
        if s.at(v): s.p+=1; return True
        return False
    # ---- declarations
    def unit(s):
        out=[]
        while s.cur.k!='eof':
            if s.at('package') or s.at('import'):
                while not s.opt(';'): s.next()
            elif s.at(';'): s.next()
            else: out.append(s.decl(None))
        return out
    def annots(s):
        while s.at('@') and not s.peek().v=='interface':
            s.next(); s.next()
            while s.opt('.'): s.next()
            if s.at('('): s.skip('(',')')
    def skip(s,a,b):
        s.eat(a); d=1
        while d:
            t=s.next()
            if t.v==a and t.k=='op': d+=1
            if t.v==b and t.k=='op': d-=1
    def mods(s):
        m=set(); s.annots()
        while s.cur.v in MODS and s.cur.k=='id': m.add(s.next().v); s.annots()
        return m
    def typeargs(s):
        if not s.at('<'): return
        d=0
        while True:
            t=s.next()
            if not (t.k=='id' or t.v in('<','>',',','.','?','[',']')): raise SyntaxError(f'line {t.line}: type argument')
            if t.v=='<': d+=1
            elif t.v=='>': d-=1
            if d<=0: return
    def type(s):
        t=s.next()
        if t.k!='id': raise SyntaxError(f'line {t.line}: type expected, found {t.v!r}')
        n=t.v
        s.typeargs()
        while s.at('.') and s.peek().k=='id':
            s.next(); n+='.'+s.next().v; s.typeargs()
        dims=0
        while s.at('[') and s.peek().v==']': s.next(); s.next(); dims+=1
        return n+'[]'*dims
    def decl(s,cls):
        m=s.mods()
        if s.cur.v in('class','interface','enum') or (s.at('@') and s.peek().v=='interface'):
            s.opt('@'); kind=s.next().v; name=s.next().v; s.typeargs(); ext=None
            while not s.at('{'):
                if s.opt('extends'): ext=s.type()
                else: s.next()
            c=Class(name,ext); c.kind=kind; s.eat('{')
            if kind=='enum':
                c.consts=[]
                while s.cur.k=='id':
                    c.consts.append(s.next().v)
                    if s.at('('): s.skip('(',')')
                    s.opt(',')
                s.opt(';')
            while not s.opt('}'):
                if s.opt(';'): continue
                d=s.decl(c)
                if isinstance(d,Class): c.inner.append(d)
            return c
        s.typeargs(); line0=s.cur.line
        if s.at('{'): # initialiser
            s.skip('{','}'); return None
        if cls and s.cur.v==cls.name and s.peek().v=='(':
            name=s.next().v; ps=s.params()
            while not s.at('{'): s.next()
            b=s.block(); cls.ctors.append(Method('<init>','void',ps,b,False,line0,s.t[s.p-1].line,cls.name)); return None
        ty=s.type(); name=s.next().v
        if s.at('('):
            ps=s.params()
            while not s.at('{') and not s.at(';'): s.next()
            if s.opt(";"): cls.sigs.append((name,ty,ps)); return None
            b=s.block(); cls.methods.append(Method(name,ty,ps,b,'static' in m,line0,s.t[s.p-1].line,cls.name)); return None
        while True:
            t=ty
            while s.at('['): s.next(); s.eat(']'); t+='[]'
            init=s.expr() if s.opt('=') else None
            cls.fields.append(Field(name,t,init,'static' in m,line0))
            if s.opt(','): name=s.next().v
            else: break
        s.eat(';')
    def params(s):
        s.eat('('); out=[]
        while not s.opt(')'):
            s.mods(); t=s.type(); s.opt('...'); n=s.next().v
            while s.at('['): s.next(); s.eat(']'); t+='[]'
            out.append((t,n)); s.opt(',')
        return out
    # ---- statements
    def block(s):
        s.eat('{'); out=[]
        while not s.opt('}'): out+=s.stmt()
        return out
    def body(s): return s.block() if s.at('{') else s.stmt()
    def isdecl(s):
        q=s.p
        try:
            if s.at('final'): return True
            if s.cur.k!='id' or s.cur.v in('return','throw','new','this','super','if','while','for','break','continue','switch','synchronized','try','yield'): return False
            s.type()
            return s.cur.k=='id' and s.peek().v in('=',';',',','[',':') and s.cur.v!='instanceof'
        except SyntaxError: return False
        finally: s.p=q
    def localdecl(s):
        s.mods(); ty=s.type(); out=[]
        while True:
            line=s.cur.line; n=s.next().v; t=ty
            while s.at('['): s.next(); s.eat(']'); t+='[]'
            out.append(('decl',line,t,n,s.expr() if s.opt('=') else None))
            if not s.opt(','): return out
    def stmt(s):
        line=s.cur.line
        if s.opt(';'): return []
        if s.at('{'): return [('block',line,s.block())]
        if s.cur.k=='id':
            v=s.cur.v
            if v=='if':
                s.next(); s.eat('('); c=s.expr(); s.eat(')'); a=s.body(); b=s.body() if s.opt('else') else []
                return [('if',line,c,a,b)]
            if v=='while':
                s.next(); s.eat('('); c=s.expr(); s.eat(')'); return [('for',line,[],c,[],s.body())]
            if v=='for':
                s.next(); s.eat('('); init=[]
                if not s.at(';'):
                    if s.isdecl():
                        init=s.localdecl()
                        if s.opt(':'):
                            e=s.expr(); s.eat(')'); return [('foreach',line,init,e,s.body())]
                    else:
                        init.append(('expr',line,s.expr()))
                        while s.opt(','): init.append(('expr',line,s.expr()))
                s.eat(';'); c=('bool',line,True) if s.at(';') else s.expr(); s.eat(';'); upd=[]
                if not s.at(')'):
                    upd.append(('expr',line,s.expr()))
                    while s.opt(','): upd.append(('expr',line,s.expr()))
                s.eat(')'); return [('for',line,init,c,upd,s.body())]
            if v=='return':
                s.next(); e=None if s.at(';') else s.expr(); s.eat(';'); return [('return',line,e)]
            if v=='throw':
                s.next(); e=s.expr(); s.eat(';'); return [('throw',line,e)]
            if v in('break','continue'):
                s.next(); s.eat(';'); return [(v,line)]
            if v=='synchronized':
                s.next(); s.eat('('); s.expr(); s.eat(')'); return [('block',line,s.block())]
            if v=='switch': return [s.switch()]
            if v=='try':
                s.next()
                if s.at('('): s.skip('(',')')
                b=s.block(); cs=[]
                while s.opt('catch'): s.skip('(',')'); cs.append(s.block())
                if s.opt('finally'): cs.append(s.block())
                return [('try',line,b,cs)]
        if s.isdecl():
            d=s.localdecl(); s.eat(';'); return d
        e=s.expr(); s.eat(';'); return [('expr',line,e)]
    # ---- expressions
    def expr(s): return s.assign()
    def assign(s):
        if s.cur.k=='id' and s.peek().v=='->':
            l=s.cur.line; p=s.next().v; s.next(); return ('lambda',l,[p],s.lambody())
        if s.at('('):
            q=s.p; d=0
            while True:
                if s.t[q].v=='(' : d+=1
                if s.t[q].v==')': d-=1
                q+=1
                if d==0: break
            if s.t[q].v=='->':
                l=s.cur.line; s.next(); ps=[]
                while not s.opt(')'):
                    s.mods()
                    if s.peek().k=='id': s.type()
                    ps.append(s.next().v); s.opt(',')
                s.eat('->'); return ('lambda',l,ps,s.lambody())
        a=s.tern(); o=s.cur
        if o.k=='op' and o.v in('=','+=','-=','*=','/=','&=','|=','^=','<<=','>>=','>>>=','%='):
            s.next(); b=s.assign(); return ('assign',o.line,o.v[:-1],a,b)
        return a
    def lambody(s):
        if s.at('{'): return ('body',s.block())
        return ('value',s.expr())
    def switch(s):
        l=s.next().line; s.eat('('); e=s.expr(); s.eat(')'); s.eat('{'); cases=[]
        while not s.opt('}'):
            if s.opt('default'): labs=None
            else:
                s.eat('case'); labs=[s.tern()]
                while s.opt(','): labs.append(s.tern())
            if s.opt('->'):
                if s.at('{'): b=('block',s.block())
                elif s.at('throw'): b=('block',s.stmt())
                else: b=('value',s.expr()); s.eat(';')
                cases.append((labs,b))
            else:
                s.eat(':'); st=[]
                while not (s.at('case') or s.at('default') or s.at('}')): st+=s.stmt()
                cases.append((labs,('block',st)))
        return ('switch',l,e,cases)
    def tern(s):
        c=s.bin(0)
        if s.at('?'):
            l=s.next().line; a=s.assign(); s.eat(':'); b=s.assign(); return ('tern',l,c,a,b)
        return c
    LV=[['||'],['&&'],['|'],['^'],['&'],['==','!='],['<','>','<=','>=','instanceof'],['<<','>>','>>>'],['+','-'],['*','/','%']]
    def op(s):
        # '>>' and '>>>' are not lexed as one token because of generics
        if s.at('>') and s.peek().v=='>' :
            if s.peek(2).v=='>': return '>>>',3
            if s.peek(2).v=='>=': return None,0
            return '>>',2
        if s.at('<') and s.peek().v=='<': return '<<',2
        return s.cur.v,1
    def bin(s,i):
        if i==len(s.LV): return s.unary()
        a=s.bin(i+1)
        while True:
            o,n=s.op()
            if s.cur.k not in('op','id') or o not in s.LV[i]: return a
            l=s.cur.line; s.p+=n
            if o=='instanceof':
                t=s.type(); bind=s.next().v if s.cur.k=='id' else None
                a=('instanceof',l,a,t,bind)
            else: a=('bin',l,o,a,s.bin(i+1))
    def unary(s):
        l=s.cur.line
        for o in('++','--'):
            if s.at(o): s.next(); return ('incdec',l,o,True,s.unary())
        for o in('-','!','~','+'):
            if s.at(o): s.next(); return ('un',l,o,s.unary())
        if s.at('('):
            q=s.p; s.next()
            try:
                t=s.type(); ok=s.at(')')
            except SyntaxError: ok=False
            if ok:
                s.next()
                base=t.replace('[]','')
                if base in PRIM or (s.cur.k in('id','num','str','chr') or s.at('(') or s.at('!') or s.at('~')) and not s.cur.v=='instanceof':
                    return ('cast',l,t,s.unary())
            s.p=q
        return s.postfix()
    def args(s):
        s.eat('('); out=[]
        while not s.opt(')'): out.append(s.expr()); s.opt(',')
        return out
    def postfix(s):
        e=s.prim()
        while True:
            l=s.cur.line
            if s.opt('.'):
                s.typeargs(); n=s.next().v
                e=('call',l,e,n,s.args()) if s.at('(') else ('field',l,e,n)
            elif s.at('['):
                s.next(); i=s.expr(); s.eat(']'); e=('index',l,e,i)
            elif s.at('++') or s.at('--'): e=('incdec',l,s.next().v,False,e)
            elif s.opt('::'): e=('mref',l,e,s.next().v)
            else: return e
    def prim(s):
        t=s.next(); l=t.line
        if t.k=='num': return ('num',l,t.v)
        if t.k=='str': return ('str',l,t.v)
        if t.k=='chr': return ('chr',l,t.v)
        if t.v=='(' : e=s.expr(); s.eat(')'); return ('paren',l,e)
        if t.v in('true','false'): return ('bool',l,t.v=='true')
        if t.v=='null': return ('null',l)
        if t.v=='this':
            if s.at('('): return ('call',l,None,'this',s.args())
            return ('this',l)
        if t.v=='super':
            if s.at('('): return ('call',l,None,'super',s.args())
            s.eat('.'); n=s.next().v; return ('supercall',l,n,s.args())
        if t.v=='switch': s.p-=1; return s.switch()
        if t.v=='new':
            n=s.next().v; s.typeargs()
            while s.opt('.'): n+='.'+s.next().v; s.typeargs()
            if s.at('['):
                dims=[]; extra=0
                while s.at('['):
                    s.next()
                    if s.opt(']'): extra+=1
                    else: dims.append(s.expr()); s.eat(']')
                if s.at('{'):
                    s.next(); el=[]
                    while not s.opt('}'): el.append(s.expr()); s.opt(',')
                    return ('newarr',l,n,dims,extra,el)
                return ('newarr',l,n,dims,extra)
            a=s.args()
            if s.at('{'): s.skip('{','}')
            return ('new',l,n,a)
        if t.k=='id':
            if s.at('('): return ('call',l,None,t.v,s.args())
            return ('name',l,t.v)
        raise SyntaxError(f'line {l}: unexpected {t.v!r}')

def template(src,subst,conds):
    """Instantiate a FreeMarker template.  `subst`: ${x} -> text.  `conds`: condition text -> True, False
    or a Java expression (then the section is guarded by an `if`)."""
    src=re.sub(r'<#ftl[^>]*>','',src)
    src=re.sub(r'/\*.*?\*/',lambda m:'\n'*m.group().count('\n'),src,flags=re.S)
    src=re.sub(r'//[^\n]*','',src)
    def pick(m):
        c=m.group(1).strip(); a=m.group(2); b=m.group(3) or ''
        v=conds.get(c,'?')
        if v=='?': raise SyntaxError('template condition '+c)
        pad=lambda x:'\n'*x.count('\n')
        if v is True: return a+pad(b)
        if v is False: return pad(a)+b
        if not a.strip() and not b.strip(): return pad(a)+pad(b)
        return f'if({v}) {{'+a+'}'+(' else {'+b+'}' if b.strip() else pad(b))
    prev=None
    while prev!=src:
        prev=src
        src=re.sub(r'<#if ([^>]*?)>((?:(?!<#if|</#if>|<#else>).)*?)(?:<#else>((?:(?!<#if|</#if>).)*?))?</#if>',pick,src,flags=re.S)
    def sub(m):
        k=m.group(1)
        if k not in subst: raise SyntaxError('template variable '+k)
        return subst[k]
    return re.sub(r'\$\{([^}]*)\}',sub,src)
