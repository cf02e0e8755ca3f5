"""A front end for the part of SystemVerilog used by the unit tests: parses a source text and writes the
design as the model takes it."""
import re,sys,copy
class Unsup(Exception): pass
TOK=re.compile(r"\s+|//[^\n]*|/\*.*?\*/|(?P<num>\d*'[sS]?[bBdDhHoO][0-9a-fA-FxXzZ_?]+|'[01xzXZ](?![\w'{])|\d+(?=')|\d[\d_]*)|(?P<id>[A-Za-z_$][\w$]*)|(?P<op><<<|>>>|===|!==|==\?|<=|>=|==|!=|&&|\|\||<<|>>|\+:|-:|\+\+|--|\+=|-=|\*\*|~&|~\||~\^|\^~|->|::|[-+*/%&|^~!<>=?:;,.(){}\[\]@#'])",re.S)
def lex(s):
    out=[];i=0
    while i<len(s):
        m=TOK.match(s,i)
        if not m: raise Unsup('lex '+s[i:i+20])
        i=m.end()
        if m.group('num'): out.append(('num',m.group('num')))
        elif m.group('id'): out.append(('id',m.group('id')))
        elif m.group('op'): out.append(('op',m.group('op')))
    out.append(('eof',''))
    return out
KW=set('module endmodule input output inout logic reg wire bit signed unsigned assign always_comb always_ff always always_latch begin end if else case endcase default posedge negedge or for int genvar generate endgenerate localparam parameter initial interface endinterface modport struct union typedef function task while casez casex unique priority integer final automatic static return foreach repeat do forever wait enum class package import export string real break continue program property sequence assert cover assume'.split())
class P:
    def __init__(s,src): s.t=lex(src); s.i=0; s.types={}; s.enums={}
    def pk(s,k=0): return s.t[min(s.i+k,len(s.t)-1)][1]
    def kd(s,k=0): return s.t[min(s.i+k,len(s.t)-1)][0]
    def nx(s): v=s.t[s.i]; s.i+=1; return v[1]
    def ac(s,x):
        if s.pk()==x: s.i+=1; return True
        return False
    def ex(s,x):
        if s.pk()!=x: raise Unsup('expected %s got %s'%(x,s.pk()))
        s.i+=1
    def ident(s):
        if s.kd()!='id' or s.pk() in KW: raise Unsup('ident '+s.pk())
        return s.nx()
    # ---- modules
    def file(s):
        ms={}
        while s.kd()!='eof':
            if s.pk()!='module': raise Unsup('top '+s.pk())
            m=s.module(); ms[m['name']]=m
        return ms
    def rng(s):
        if s.pk()!='[': return None
        s.ex('['); a=s.expr(); s.ex(':'); b=s.expr(); s.ex(']')
        return (a,b)
    def typ(s):
        # returns (range,signed,given)
        sg=False; given=False
        while s.pk() in('logic','reg','wire','bit'): s.nx(); given=True
        if s.pk() in('int','integer'): s.nx(); return ('rng',[(('num','31'),('num','0'))]),True,True
        if s.pk() in('struct','union'):
            k=s.nx(); s.ex('packed'); s.ex('{'); fs=[]
            while not s.ac('}'):
                ty=s.typ()
                while True:
                    fs.append((s.ident(),ty))
                    if s.ac(';'): break
                    s.ex(',')
            return (k,fs),False,True
        if s.pk()=='enum':
            s.nx(); ty=s.typ(); s.ex('{'); ns=[]
            while not s.ac('}'): ns.append(s.ident()); s.ac(',')
            s.enums.update({n:i for i,n in enumerate(ns)})
            return ty
        if s.kd()=='id' and s.pk() in s.types: return s.types[s.nx()]
        if s.ac('signed'): sg=True; given=True
        s.ac('unsigned')
        r=[]
        while s.pk()=='[': r.append(s.rng())
        return (('rng',r) if r else None),sg,given or bool(r)
    def module(s):
        s.ex('module'); n=s.ident(); m={'name':n,'ports':[],'items':[],'params':[]}
        if s.pk()=='#':
            s.nx(); s.ex('(')
            while not s.ac(')'):
                s.ac('parameter'); s.typ(); p=s.ident(); s.ex('='); m['params'].append((p,s.expr())); s.ac(',')
        if s.ac('('):
            d='inout'; ty=(None,False,False)
            while not s.ac(')'):
                if s.pk() in('input','output','inout'): d=s.nx(); ty=s.typ()
                elif s.pk() in('logic','reg','wire','bit','signed','[') or s.pk() in s.types: ty=s.typ()
                nm=s.ident()
                if s.pk()=='.' or s.kd()=='id': raise Unsup('iface port')
                m['ports'].append((nm,d,s.unp(ty))); s.ac(',')
        s.ex(';')
        while not s.ac('endmodule'): m['items']+=s.item()
        return m
    def unp(s,ty):
        u=[]
        while s.pk()=='[':
            s.nx(); a=s.expr()
            if s.ac(':'): b=s.expr()
            else: b=('bin','-',a,('num','1')); a=('num','0')
            s.ex(']'); u.append((a,b))
        return ty if not u else (('unp',u,ty),False,True)
    def item(s):
        k=s.pk()
        if k=='typedef':
            s.nx(); ty=s.typ(); s.types[s.ident()]=ty; s.ex(';'); return []
        if k=='if':
            s.nx(); s.ex('('); c=s.expr(); s.ex(')')
            def blkk():
                if s.pk()=='if': return '',s.item()
                if s.ac('begin'):
                    nm=''
                    if s.ac(':'): nm=s.ident()
                    b=[]
                    while not s.ac('end'): b+=s.item()
                    return nm,b
                return '',s.item()
            a=blkk(); b=None
            if s.ac('else'): b=blkk()
            return [('genif',c,a,b)]
        if k in('logic','reg','wire','bit','int','integer','struct','union') or k in s.types:
            ty=s.typ(); out=[]
            while True:
                n=s.ident()
                uty=s.unp(ty)
                init=None
                if s.ac('='): init=s.expr()
                out.append(('var',n,uty,init,k=='wire'))
                if s.ac(';'): break
                s.ex(',')
            return out
        if k in('localparam','parameter'):
            s.nx(); s.typ(); out=[]
            while True:
                n=s.ident(); s.ex('='); out.append(('param',n,s.expr()))
                if s.ac(';'): break
                s.ex(',')
            return out
        if k=='assign':
            s.nx(); out=[]
            while True:
                l=s.expr(); s.ex('='); out.append(('assign',l,s.expr()))
                if s.ac(';'): break
                s.ex(',')
            return out
        if k in('always_comb','always_latch'): s.nx(); return [('proc',k,None,s.stmt())]
        if k in('always_ff','always'):
            s.nx(); ev=None
            if s.pk()!='@': return [('proc',k,'untimed',s.stmt())]
            s.ex('@')
            if s.ac('*'): pass
            else:
                s.ex('(')
                if s.ac('*'): s.ex(')')
                else:
                    ev=[]
                    while not s.ac(')'):
                        e='none'
                        if s.pk() in('posedge','negedge'): e=s.nx()
                        x=s.expr()
                        ev.append((e,x))
                        if s.pk() in('or',','): s.nx()
                        elif s.pk()!=')': raise Unsup('event '+s.pk())
            return [('proc',k,ev,s.stmt())]
        if k=='initial': s.nx(); return [('proc','initial',None,s.stmt())]
        if k in('generate','endgenerate'): s.nx(); return []
        if k=='for':
            s.nx(); s.ex('('); s.ex('genvar'); v=s.ident(); s.ex('='); a=s.expr(); s.ex(';'); c=s.expr(); s.ex(';'); st=s.step(); s.ex(')')
            s.ex('begin'); nm=''
            if s.ac(':'): nm=s.ident()
            b=[]
            while not s.ac('end'): b+=s.item()
            return [('genfor',v,a,c,st,nm,b)]
        if s.kd()=='id' and k not in KW:
            mod=s.ident(); pv=[]
            if s.ac('#'):
                s.ex('(')
                while not s.ac(')'):
                    if s.ac('.'): n=s.ident(); s.ex('('); pv.append((n,s.expr())); s.ex(')')
                    else: pv.append((None,s.expr()))
                    s.ac(',')
            out=[]
            while True:
                nm=s.ident()
                arr=s.unp((None,False,False)); arr=arr[0][1] if arr[0] else None
                s.ex('('); cs=[]
                while not s.ac(')'):
                    if s.ac('.'):
                        if s.ac('*'): raise Unsup('.*')
                        n=s.ident()
                        if s.ac('('):
                            e=None if s.pk()==')' else s.expr()
                            s.ex(')')
                        else: e=('id',n)
                        cs.append((n,e))
                    else: cs.append((None,s.expr()))
                    s.ac(',')
                out.append(('inst',mod,nm,cs,pv,arr))
                if s.ac(';'): break
                s.ex(',')
            return out
        raise Unsup('item '+k)
    def step(s):
        if s.ac('++'): v=s.ident(); return (v,('bin','+',('id',v),('num','1')))
        v=s.ident()
        if s.ac('++'): return (v,('bin','+',('id',v),('num','1')))
        if s.ac('--'): return (v,('bin','-',('id',v),('num','1')))
        if s.ac('+='): return (v,('bin','+',('id',v),s.expr()))
        s.ex('='); return (v,s.expr())
    def stmt(s):
        k=s.pk()
        if s.ac(';'): return ('skip',)
        if k=='@':
            s.nx(); s.ex('('); 
            while not s.ac(')'): s.nx()
            return s.stmt()
        if k in('int','automatic','logic') or k in s.types:
            au=s.ac('automatic'); ty=s.typ(); n=s.ident(); init=None
            if s.ac('='): init=s.expr()
            s.ex(';'); return ('decl',n,ty,init,au)
        if k=='while':
            s.nx(); s.ex('('); c=s.expr(); s.ex(')'); return ('while',c,s.stmt())
        if k=='begin':
            s.nx()
            if s.ac(':'): s.ident()
            b=[]
            while not s.ac('end'): b.append(s.stmt())
            return ('seq',b)
        if k in('unique','priority'): s.nx(); return s.stmt()
        if k=='if':
            s.nx(); s.ex('('); c=s.expr(); s.ex(')'); a=s.stmt(); b=('skip',)
            if s.ac('else'): b=s.stmt()
            return ('if',c,a,b)
        if k in('case','casez','casex'):
            s.nx(); s.ex('('); c=s.expr(); s.ex(')'); its=[]; df=None
            while not s.ac('endcase'):
                if s.ac('default'): s.ac(':'); df=s.stmt()
                else:
                    es=[s.expr()]
                    while s.ac(','): es.append(s.expr())
                    s.ex(':'); its.append((es,s.stmt()))
            return ('case',c,its,df)
        if k=='for':
            s.nx(); s.ex('('); s.ex('int'); v=s.ident(); s.ex('='); a=s.expr(); s.ex(';'); c=s.expr(); s.ex(';'); st=s.step(); s.ex(')')
            return ('for',v,a,c,st,s.stmt())
        if s.kd()=='op' and k=='{' or (s.kd()=='id' and k not in KW and not k.startswith('$')):
            l=s.postfix()
            if s.ac('='): r=s.expr(); s.ex(';'); return ('ba',l,r)
            if s.ac('<='): r=s.expr(); s.ex(';'); return ('nba',l,r)
            if s.ac('++') : s.ex(';'); return ('ba',l,('bin','+',l,('num','1')))
            if s.pk() in('+=','-='): o=s.nx()[0]; r=s.expr(); s.ex(';'); return ('ba',l,('bin',o,l,r))
            raise Unsup('stmt '+s.pk())
        raise Unsup('stmt '+k)
    # ---- expressions
    PREC=[['||'],['&&'],['|'],['^','~^','^~'],['&'],['==','!=','===','!=='],['<','<=','>','>='],['<<','>>','<<<','>>>'],['+','-'],['*','/','%']]
    def expr(s):
        c=s.bin(0)
        if s.ac('?'):
            a=s.expr(); s.ex(':'); b=s.expr(); return ('cond',c,a,b)
        return c
    def bin(s,l):
        if l==len(s.PREC): return s.un()
        a=s.bin(l+1)
        while s.kd()=='op' and s.pk() in s.PREC[l]:
            o=s.nx(); b=s.bin(l+1); a=('bin',o,a,b)
        return a
    def un(s):
        if s.kd()=='op' and s.pk() in('~','!','-','+','&','|','^','~&','~|','~^'): o=s.nx(); return ('un',o,s.un())
        return s.postfix()
    def postfix(s):
        k=s.kd(); v=s.pk()
        if k=='num':
            s.nx()
            if s.pk()=="'" and s.pk(1)=='(':
                s.nx(); s.nx(); e=s.expr(); s.ex(')'); return ('cast',int(v),e)
            return ('num',v)
        if v=='(':
            s.nx(); e=s.expr(); s.ex(')')
            if s.pk()=="'": raise Unsup('cast')
            return e
        if v=='{':
            s.nx(); a=s.expr()
            if s.pk()=='{':
                s.nx(); es=[s.expr()]
                while s.ac(','): es.append(s.expr())
                s.ex('}'); s.ex('}'); return ('repl',a,es[0] if len(es)==1 else ('cat',es), len(es))
            es=[a]
            while s.ac(','): es.append(s.expr())
            s.ex('}'); e=('cat',es)
            return e
        if v=='signed' or v=='unsigned': raise Unsup('cast')
        if k=='id' and v.startswith('$'):
            raise Unsup('system '+v)
        n=s.ident(); e=('id',n)
        while True:
            if s.pk()=='[':
                s.nx(); a=s.expr()
                if s.ac(':'): b=s.expr(); e=('sel',e,a,b)
                elif s.ac('+:'): b=s.expr(); e=('psel',e,a,b,1)
                elif s.ac('-:'): b=s.expr(); e=('psel',e,a,b,-1)
                else: e=('idx',e,a)
                s.ex(']')
            elif s.pk()=='.': s.nx(); e=('mem',e,s.ident())
            elif s.pk() in('::','('): raise Unsup('member '+s.pk())
            elif s.pk()=="'":
                if e[0]!='id' or e[1] not in s.types: raise Unsup('cast')
                s.nx(); s.ex('('); x=s.expr(); s.ex(')'); return ('tcast',s.types[e[1]],x)
            else: return e
def numval(v):
    """(value bits lsb first, width or None, signed)"""
    m=re.match(r"^(\d*)'([sS]?)([bBdDhHoO])([0-9a-fA-FxXzZ_?]+)$",v)
    if m:
        w=int(m.group(1)) if m.group(1) else 32; b=m.group(3).lower(); d=m.group(4).replace('_','').lower().replace('?','z')
        if b=='d':
            n=int(d); bits=[(n>>i)&1 for i in range(w)]; return bits,w,bool(m.group(2))
        k={'b':1,'o':3,'h':4}[b]; bits=[]
        for ch in reversed(d):
            if ch in'xz': bits+=[ch]*k
            else:
                n=int(ch,16); bits+=[(n>>i)&1 for i in range(k)]
        while len(bits)<w: bits.append(0)
        return bits[:w],w,bool(m.group(2))
    m=re.match(r"^'([01xzXZ])$",v)
    if m: return m.group(1),None,False
    n=int(v.replace('_','')); return [(n>>i)&1 for i in range(32)],32,True
class Elab:
    def __init__(s,mods,boxes=()):
        s.mods=mods; s.sigs=[]; s.blocks=[]; s.boxes=boxes
    def newsig(s,name,path,ty,sg):
        s.sigs.append(dict(name=name,path=path,w=s.tw(ty),sg=sg,ty=ty,port=False,drv=[],auto=False)); return len(s.sigs)-1
    def tw(s,t):
        if t[0]=='bit': return 1
        if t[0]=='arr': return (abs(t[1]-t[2])+1)*s.tw(t[3])
        if t[0]=='union': return max(s.tw(x) for _,x in t[1])
        return sum(s.tw(x) for _,x in t[1])
    def rty(s,ty,env):
        r=ty[0]
        if r is None: return ('bit',)
        if r[0]=='rng':
            t=('bit',)
            for a,b in reversed(r[1]): t=('arr',s.cst(a,env),s.cst(b,env),t)
            return t
        if r[0]=='unp':
            t=s.rty(r[2],env)
            for a,b in reversed(r[1]): t=('arr',s.cst(a,env),s.cst(b,env),t)
            return t
        return (r[0],[(n,s.rty(t,env)) for n,t in r[1]])
    # constants
    def const(s,e,env):
        k=e[0]
        if k=='num':
            b,w,_=numval(e[1])
            if w is None: return {'0':0,'1':1}[b]
            if any(x in('x','z') for x in b): raise Unsup('xz')
            return sum(x<<i for i,x in enumerate(b))
        if k=='id':
            if e[1] in env['par']: return env['par'][e[1]]
            return None
        if k=='bin':
            a=s.const(e[2],env); b=s.const(e[3],env)
            if a is None or b is None: return None
            o=e[1]
            f={'+':lambda:a+b,'-':lambda:a-b,'*':lambda:a*b,'/':lambda:a//b,'%':lambda:a%b,'<':lambda:int(a<b),'<=':lambda:int(a<=b),'>':lambda:int(a>b),'>=':lambda:int(a>=b),'==':lambda:int(a==b),'!=':lambda:int(a!=b),'&':lambda:a&b,'|':lambda:a|b,'^':lambda:a^b,'&&':lambda:int(bool(a) and bool(b)),'||':lambda:int(bool(a) or bool(b)),'<<':lambda:a<<b,'>>':lambda:a>>b}.get(o)
            if not f: return None
            return f()
        if k=='un':
            a=s.const(e[2],env)
            if a is None: return None
            if e[1]=='-': return -a
            if e[1]=='!': return int(not a)
            if e[1]=='+': return a
            return None
        return None
    def cst(s,e,env):
        v=s.const(e,env)
        if v is None: raise Unsup('not constant')
        return v
    # static path: (sig, lo, hi, sels, dynamic)
    def lpath(s,e,env):
        r=s.lp(e,env)
        if r is None: return None
        n,lo,t,sels,st,w=r
        return (n,lo,lo+st-1,sels,w)
    def lp(s,e,env):
        '''(signal, lowest bit, type, selectors, static width, width)'''
        k=e[0]
        if k=='id':
            n=env['sig'].get(e[1])
            if n is None: return None
            t=s.sigs[n]['ty']
            return (n,0,t,[],s.tw(t),s.tw(t))
        if k=='mem':
            b=s.lp(e[1],env)
            if b is None: raise Unsup('member')
            n,lo,t,sels,st,w=b
            if t[0] not in('struct','union'): raise Unsup('member')
            o=0
            for nm,x in reversed(t[1]):
                if nm==e[2]:
                    if sels: return (n,lo,x,sels,st,s.tw(x))
                    return (n,lo+o,x,[],s.tw(x),s.tw(x))
                if t[0]=='struct': o+=s.tw(x)
            raise Unsup('field')
        if k in('idx','sel','psel'):
            b=s.lp(e[1],env)
            if b is None: raise Unsup('select of non-signal')
            n,lo,t,sels,st,w=b
            if t[0]!='arr': raise Unsup('select of '+t[0])
            el=t[3]; ew=s.tw(el)
            def off(i): return (i-t[2] if t[1]>=t[2] else t[2]-i)*ew
            if k=='idx':
                v=s.const(e[2],env)
                if v is not None and not sels: return (n,lo+off(v),el,[],ew,ew)
                return (n,lo,el,sels+([] if v is not None else [e[2]]),st,ew)
            if k=='sel':
                a=s.cst(e[2],env); c=s.cst(e[3],env); ww=(abs(a-c)+1)*ew
                if sels: return (n,lo,('arr',a,c,el),sels,st,ww)
                return (n,lo+min(off(a),off(c)),('arr',a,c,el),[],ww,ww)
            ww=s.cst(e[3],env); v=s.const(e[2],env)
            if v is None or sels: return (n,lo,('arr',ww-1,0,el),sels+[e[2]],st,ww*ew)
            a,c=(v,v+ww-1) if e[4]==1 else (v-ww+1,v)
            return (n,lo+min(off(a),off(c)),('arr',max(a,c),min(a,c),el),[],ww*ew,ww*ew)
        return None
    def self(s,e,env):
        """(width or None for unsized fill, signed)"""
        k=e[0]
        if k=='num':
            b,w,sg=numval(e[1]); return (1 if w is None else w,sg)
        if k=='id' and e[1] in env['par']: return (32,True)
        p=s.lpath(e,env)
        if p is not None: return (p[4], s.sigs[p[0]]['sg'] if k=='id' else False)
        if k=='id': raise Unsup('unknown '+e[1])
        if k=='cat': return (sum(s.self(x,env)[0] for x in e[1]),False)
        if k=='repl': return (s.cst(e[1],env)*s.self(e[2],env)[0],False)
        if k=='cast': return (e[1],s.self(e[2],env)[1])
        if k=='tcast': return (s.tw(s.rty(e[1],env)),e[1][1])
        if k=='cond':
            a=s.self(e[2],env); b=s.self(e[3],env); return (max(a[0],b[0]),a[1] and b[1])
        if k=='bin':
            if e[1] in('==','!=','===','!==','<','<=','>','>=','&&','||'): return (1,False)
            a=s.self(e[2],env)
            if e[1] in('<<','>>','<<<','>>>'): return a
            b=s.self(e[3],env); return (max(a[0],b[0]),a[1] and b[1])
        if k=='un':
            if e[1] in('!','&','|','^','~&','~|','~^'): return (1,False)
            return s.self(e[2],env)
        raise Unsup('self '+k)
    def reads(s,e,env):
        """list of paths read in e, left to right; selectors first"""
        p=s.lpath(e,env) if e[0] in('id','idx','sel','psel','mem') else None
        if p is not None:
            out=[]
            for x in p[3]: out+=s.reads(x,env)
            return out+[(p[0],p[1],p[2])]
        k=e[0]
        if k in('num','id'): return []
        if k=='cat': return sum((s.reads(x,env) for x in e[1]),[])
        if k=='repl': return s.reads(e[2],env)
        if k in('cast','tcast'): return s.reads(e[2],env)
        if k=='cond': return s.reads(e[1],env)+s.reads(e[2],env)+s.reads(e[3],env)
        if k=='bin': return s.reads(e[2],env)+s.reads(e[3],env)
        if k=='un': return s.reads(e[2],env)
        raise Unsup('reads')
    def bits(s,v,w):
        return '['+', '.join({0:'.zero',1:'.one','x':'.x','z':'.z'}[x] for x in v[:w])+']'
    def cbits(s,e,env,w,sg):
        """constant bits of e at width w (context), None if not constant"""
        if e[0]=='num':
            b,bw,bs=numval(e[1])
            if bw is None: return [{'0':0,'1':1,'x':'x','z':'z','X':'x','Z':'z'}[b]]*w
            b=list(b)
            while len(b)<w: b.append(b[-1] if bs and sg else 0)
            return b[:w]
        if e[0]=='cat':
            bs=[s.cbits(x,env,s.self(x,env)[0],False) for x in reversed(e[1])]
            if any(b is None for b in bs): return None
            b=sum(bs,[])
            while len(b)<w: b.append(0)
            return b[:w]
        if s.reads(e,env): return None
        v=s.const(e,env)
        if v is None: return None
        return [(v>>i)&1 for i in range(w)]
    def pth(s,p): return '⟨some %d, %d, %d⟩'%(p[0],p[1],p[2]-p[1])
    def emit(s,e,env,w=None,sg=None):
        """Lean SExpr of e in a context of width w"""
        sw,ss=s.self(e,env)
        if w is None: w=sw
        if sg is None: sg=ss
        k=e[0]
        def other(w): 
            b=s.cbits(e,env,w,sg)
            return '.other %d %s [%s]'%(w,'none' if b is None else '(some %s)'%s.bits(b,w),', '.join(s.pth(p) for p in s.reads(e,env)))
        def conv(inner):
            if sw==w: return inner
            b=s.cbits(e,env,w,sg)
            return '.conv %d %s %s (%s)'%(w,'true' if ss and sg else 'false','none' if b is None else '(some %s)'%s.bits(b,w),inner)
        p=s.lpath(e,env) if k in('id','idx','sel','psel','mem') else None
        if p is not None:
            return conv('.lsp %d %s [%s]'%(p[4],s.pth(p),', '.join(s.emit(x,env) for x in p[3])))
        if k in('num','id'):
            b,bw,_=numval(e[1]) if k=='num' else (None,32,True)
            if bw is None: return other(w)
            return conv(s.emit_self_other(e,env,sw,sg))
        if k=='cat': return conv('.concat %d [%s]'%(sw,', '.join(s.emit(x,env) for x in e[1])))
        if k=='repl':
            inner=s.emit(e[2],env) if e[2][0]=='cat' else '.concat %d [%s]'%(s.self(e[2],env)[0],s.emit(e[2],env))
            return conv('.repl %d (some %d) (%s)'%(sw,s.cst(e[1],env),inner))
        if k=='tcast': e=('cast',sw,e[2]); k='cast'
        if k=='cast':
            iw,isg=s.self(e[2],env)
            if iw==e[1]: return conv(s.emit(e[2],env))
            b=s.cbits(e[2],env,e[1],isg)
            return conv('.conv %d %s %s (%s)'%(e[1],'true' if isg else 'false','none' if b is None else '(some %s)'%s.bits(b,e[1]),s.emit(e[2],env)))
        if k=='cond':
            return '.condOp %d 1 false [] (%s) (%s) (%s)'%(w,s.emit(e[1],env),s.emit(e[2],env,w,sg),s.emit(e[3],env,w,sg))
        if k=='bin':
            if e[1] in('==','!=','===','!==','<','<=','>','>=','&&','||'): return conv(other(1))
            return other(w)
        if k=='un':
            if e[1] in('!','&','|','^','~&','~|','~^'): return conv(other(1))
            return other(w)
        raise Unsup('emit '+k)
    def emit_self_other(s,e,env,w,sg):
        b=s.cbits(e,env,w,sg)
        return '.other %d (some %s) []'%(w,s.bits(b,w))
    def rhs(s,e,env,lw):
        """assignment-like context of width lw"""
        sw,sg=s.self(e,env)
        if e[0]=='num' and numval(e[1])[1] is None: return s.emit(e,env,lw)
        if sw<=lw: return s.emit(e,env,lw,sg)
        b=s.cbits(e,env,lw,sg)
        return '.conv %d false %s (%s)'%(lw,'none' if b is None else '(some %s)'%s.bits(b,lw),s.emit(e,env))
    def lhs(s,e,env,blkid):
        """emit lvalue, registering drivers"""
        if e[0]=='cat':
            return '.concat %d [%s]'%(s.self(e,env)[0],', '.join(s.lhs(x,env,blkid) for x in e[1]))
        p=s.lpath(e,env)
        if p is None: raise Unsup('lhs')
        d=(p[1],p[2],blkid)
        if d not in s.sigs[p[0]]['drv']: s.sigs[p[0]]['drv'].append(d)
        return s.emit(e,env)
    def asg(s,l,r,env,bid):
        lw=s.self(l,env)[0]
        L=s.lhs(l,env,bid); R=s.rhs(r,env,lw)
        return '(%s) (%s)'%(L,R)
    def st(s,x,env,bid):
        k=x[0]
        if k=='skip': return '.skip'
        if k=='decl':
            n=s.decl(x[1],env['path'],x[2],env); s.sigs[n]['auto']=x[4]; env['sig'][x[1]]=n
            if x[3] is None: return '.skip'
            if x[4]: return '.skip'
            return '.skip'
        if k=='while':
            return 'sq [.eval (%s), .choose true .skip (.seq (%s) .dead)]'%(s.emit(x[1],env),s.st(x[2],env,bid))
        if k=='seq':
            if not x[1]: return '.skip'
            if len(x[1])==1: return s.st(x[1][0],env,bid)
            return 'sq ['+', '.join(s.st(y,env,bid) for y in x[1])+']'
        if k in('ba','nba'): return '%s %s'%(k,s.asg(x[1],x[2],env,bid))
        if k=='if':
            if not s.reads(x[1],env):
                v=s.cst(x[1],env)
                a,b=s.st(x[2],env,bid),s.st(x[3],env,bid)
                return '.choose true (%s) (.seq .dead (%s))'%(a,b) if v else '.choose true (.seq .dead (%s)) (%s)'%(a,b)
            return 'ite (%s) (%s) (%s)'%(s.emit(x[1],env),s.st(x[2],env,bid),s.st(x[3],env,bid))
        if k=='case':
            cw=s.self(x[1],env)[0]
            es=[s.emit(x[1],env)]+[s.emit(y,env,max(cw,s.self(y,env)[0])) for it in x[2] for y in it[0]]
            alts=[s.st(it[1],env,bid) for it in x[2]]
            full=False
            try: full=len({s.cst(y,env) for it in x[2] for y in it[0]})==2**cw
            except Unsup: pass
            if x[3] is not None: alts.append(s.st(x[3],env,bid))
            elif not full: alts.append('.skip')
            t=alts[0]
            for y in alts[1:]: t='.choose true (%s) (%s)'%(t,y)
            return '.cond true {} [%s] (%s)'%(', '.join(es),t)
        if k=='for':
            v=s.cst(x[2],env); out=[]; n=0
            while True:
                en=dict(env,par=dict(env['par'],**{x[1]:v}))
                if not s.cst(x[3],en): break
                out.append(s.st(x[5],en,bid)); v=s.cst(x[4][1],en); n+=1
                if n>64: raise Unsup('loop')
            return '.choose true .skip (sq [%s])'%', '.join(out)
        raise Unsup('stmt '+k)
    def inst(s,mname,path,params,env0=None):
        m=s.mods[mname]; env={'sig':{},'par':{}}
        for i,(p,d) in enumerate(m['params']):
            v=params.get(p,params.get(i)); env['par'][p]=s.cst(d,env) if v is None else v
        mem=[]; ports=[]
        for (n,d,ty) in m['ports']:
            k=s.decl(n,path,ty,env); s.sigs[k]['port']=True; env['sig'][n]=k; ports.append((n,d,k)); mem.append(('port',d,k))
        s.items(m['items'],path,env,mem)
        return mem,ports
    def decl(s,n,path,ty,env):
        return s.newsig(n,path+'.'+n,s.rty(ty,env),ty[1])
    def items(s,its,path,env,mem):
        for it in its:
            if it[0]=='var': env['sig'][it[1]]=s.decl(it[1],path,it[2],env)
            if it[0]=='param': env['par'][it[1]]=s.cst(it[2],env)
            if it[0]=='var' and it[3] is not None and not it[4]: raise Unsup('initialiser')
        for it in its:
            k=it[0]
            if k=='genif':
                v=s.cst(it[1],env)
                for br,on in((it[2],bool(v)),(it[3],not v)):
                    if br is None: continue
                    if not on: mem.append(('ugroup',)); continue
                    sub=[]; en=dict(env,par=dict(env['par']),sig=dict(env['sig'])); s.items(br[1],path+('.'+br[0] if br[0] else ''),en,sub); mem.append(('group',sub))
            elif k=='var' and it[3] is not None:
                b=len(s.blocks); s.blocks.append(None); s.blocks[b]='cont '+s.asg(('id',it[1]),it[3],env,b); mem.append(('blk',b))
            elif k=='assign':
                b=len(s.blocks); s.blocks.append(None); s.blocks[b]='cont '+s.asg(it[1],it[2],env,b); mem.append(('blk',b))
            elif k=='proc':
                b=len(s.blocks); s.blocks.append(None); st=s.st(it[3],dict(env,sig=dict(env['sig']),path=path),b)
                kind={'always_comb':'.alwaysComb','always_latch':'.alwaysLatch','always_ff':'.alwaysFF','always':'.always','initial':'.initial'}[it[1]]
                if it[1] in('always_comb','always_latch','initial'): body='.other'
                elif it[2]=='untimed': body='.other'
                elif it[2] is None: body='(.timed .other)'
                else:
                    evs=[]
                    for e,x in it[2]:
                        ek={'posedge':'.posEdge','negedge':'.negEdge','none':'.none'}[e]
                        evs.append('⟨%s, %s⟩'%(ek,'some %d'%env['sig'][x[1]] if x[0]=='id' and x[1] in env['sig'] else 'none'))
                    body='(.timed (.signalEvent %s))'%evs[0] if len(evs)==1 else '(.timed (.eventList [%s]))'%', '.join('some '+e for e in evs)
                s.blocks[b]='.procedural %s %s (%s)'%(kind,body,st); mem.append(('blk',b))
            elif k=='genfor':
                v=s.cst(it[2],env); n=0; g=[]
                while True:
                    en=dict(env,par=dict(env['par'],**{it[1]:v}),sig=dict(env['sig']))
                    if not s.cst(it[3],en): break
                    sub=[]; s.items(it[6],path+'.%s[%d]'%(it[5],v),en,sub); g.append(('group',sub)); v=s.cst(it[4][1],en); n+=1
                    if n>64: raise Unsup('gen')
                mem.append(('group',g))
            elif k=='inst':
                _,mod,nm,cs,pv,arr=it
                if mod not in s.mods: raise Unsup('module '+mod)
                if arr:
                    if len(arr)>1: raise Unsup('inst array')
                    a,b=s.cst(arr[0][0],env),s.cst(arr[0][1],env); ix=list(range(a,b+1)) if a<=b else list(range(a,b-1,-1))
                    n=len(ix)
                    for pos,ii in enumerate(ix):
                        def part(nmp,e):
                            if e is None or e[0]!='id': raise Unsup('inst array actual')
                            sgn=s.sigs[env['sig'][e[1]]]; w=sgn['w']//n
                            if sgn['w']==1: return e
                            lo=(n-1-pos)*w
                            return ('sel',e,('num',str(lo+w-1)),('num',str(lo))) if w>1 else ('idx',e,('num',str(lo)))
                        s.items([('inst',mod,nm+'[%d]'%ii,[(q,part(q,e)) for q,e in cs],pv,None)],path,env,mem)
                    continue
                p2=path+'.'+nm
                sub,ports=s.inst(mod,p2,{(a if a else i):s.cst(e,env) for i,(a,e) in enumerate(pv)})
                con=[]
                if cs and cs[0][0] is None: cm={ports[i][0]:e for i,(_,e) in enumerate(cs)}
                else: cm=dict(cs)
                for (n,d,sk) in ports:
                    e=cm.get(n)
                    if e is None: con.append('⟨.port %d (some %d), none, %s, true⟩'%(100+sk,sk,'true' if d=='output' else 'false')); continue
                    w=s.sigs[sk]['w']
                    if d=='input': x=s.rhs(e,env,w)
                    else: x=s.lhs(e,env,('c',p2,n))
                    con.append('⟨.port %d (some %d), some (%s), %s, true⟩'%(100+sk,sk,x,'true' if d=='output' else 'false'))
                mem.append(('inst',mod,p2,sub,con))
    def member(s,m):
        if m[0]=='port':
            S=s.sigs[m[2]]
            if m[1]=='input': ds=['⟨0, %d, true⟩'%(S['w']-1)]
            else:
                seen=[]
                for (a,b,_) in S['drv']: seen.append((a,b))
                ds=['⟨%d, %d, false⟩'%(a,b-a) for (a,b) in sorted(seen)]
                if m[1]=='inout': ds=['⟨0, %d, true⟩'%(S['w']-1)]+ds
            return '.port ⟨%d, some %d, .%s, [%s]⟩'%(100+m[2],m[2],m[1],', '.join(ds))
        if m[0]=='blk': return 'blk %d'%m[1]
        if m[0]=='ugroup': return '.group true []'
        if m[0]=='group': return '.group false [%s]'%', '.join(s.member(x) for x in m[1])
        if m[0]=='inst': return '.inst false (chs "%s") (chs "%s") [%s]\n        [%s]'%(m[1],m[2],', '.join(s.member(x) for x in m[3]),',\n         '.join(m[4]))
    def design(s):
        inst={it[1] for m in s.mods.values() for it in s.walk(m['items']) if it[0]=='inst'}
        tops=[n for n in s.mods if n not in inst]
        tree=[]
        for t in tops:
            mem,_=s.inst(t,t,{})
            tree.append(('inst',t,t,mem,[]))
        if len(s.sigs)>=100: raise Unsup('many signals')
        sg=', '.join('⟨chs "%s", %d, %s, chs "%s"⟩'%(x['name'],x['w'],'true' if x['port'] else 'false',x['path']) for x in s.sigs)
        return '{ sigs := [%s]\n    %stree := [%s]\n    blocks := [%s] }'%(sg,'autos := [%s]\n    '%', '.join(str(i) for i,x in enumerate(s.sigs) if x['auto']) if any(x['auto'] for x in s.sigs) else '',',\n      '.join(s.member(x) for x in tree),',\n      '.join(s.blocks))
    def walk(s,its):
        for it in its:
            if it[0]=='genfor': yield from s.walk(it[6])
            elif it[0]=='genif':
                for b in it[2:4]:
                    if b: yield from s.walk(b[1])
            else: yield it
