"""Turns tests of /repo/tests/unit into designs and checks of the model."""
import re,sys
sys.path.insert(0,__import__('os').path.dirname(__import__('os').path.abspath(__file__)))
from sv import *
def tests(f):
    s=open('/repo/tests/unit/'+f).read()
    for m in re.finditer(r'TEST_CASE\((.*?)\)\s*\{(.*?)(?=\nTEST_CASE|\Z)',s,re.S):
        l0=s[:m.start()].count('\n')+1
        body=m.group(2); k=body.rfind('\n}'); body=body[:k]
        l1=l0+m.group(0)[:m.group(0).rfind('\n}')].count('\n')+1
        title=re.search(r'"(.*?)"\s*(?:"(.*?)")?',m.group(1),re.S)
        yield f,l0,l1,''.join(x for x in re.findall(r'"([^"]*)"',m.group(1).rsplit(',',1)[0])),body
def expand(b):
    """unroll simple loops of checks"""
    def r(m):
        v,a,z,inner=m.group(1),int(m.group(2)),int(m.group(3)),m.group(4)
        return '\n'.join(re.sub(r'(?<![."\w])%s\b(?!")'%v,str(i),inner) for i in range(a,z))
    b=re.sub(r'for \((?:int32_t|int|size_t) (\w+) = (\d+); \1 < (\d+); (?:\+\+\1|\1\+\+)\) \{([^{}]*(?:\{[^{}]*\}[^{}]*)*)\}',r,b)
    def r2(m):
        v,l,inner=m.group(1),m.group(2),m.group(3)
        return '\n'.join(re.sub(r'\b%s\b'%v,x.strip(),inner) for x in l.split(','))
    b=re.sub(r'for \(auto const \*(\w+) : \{([^{}]*)\}\) \{([^{}]*)\}',r2,b)
    return b
def checks(b):
    out=[];left=[]
    b=re.sub(r'//[^\n]*','',b)
    b=re.sub(r'R"\(.*?\)"','',b,flags=re.S)
    b=expand(b)
    for m in list(re.finditer(r'auto (\w+) = (test\.(?:graph\.)?getDrivers\("[^"]*", ?\{\d+, ?\d+\}\));',b)):
        e=re.compile(r'\b%s\b'%m.group(1)); k=m.end(); nx=re.search(r'auto %s ='%m.group(1),b[k:])
        z=len(b) if not nx else k+nx.start()
        b=b[:k]+e.sub(lambda _:m.group(2),b[k:z])+b[z:] if False else b
    # inline driver lists one after the other
    pos=0
    while True:
        m=re.compile(r'auto (\w+) =\s*(test\.(?:graph\.)?getDrivers\("[^"]*", ?\{\d+, ?\d+\}\));').search(b,pos)
        if not m: break
        v,t=m.group(1),m.group(2); rest=b[m.end():]; nx=re.search(r'auto %s\s*='%v,rest); z=len(rest) if not nx else nx.start()
        rest=re.sub(r'\b%s\b'%v,lambda _:t,rest[:z])+rest[z:]
        b=b[:m.start()]+rest; pos=m.start()
    b=re.sub(r'REQUIRE\(!(test[^;]*)\.empty\(\)\);',r'CHECK(\1.size() >= 1);',b)
    for m in re.finditer(r'(CHECK|CHECK_FALSE|REQUIRE)\((.*?)\);',b,re.S):
        neg=m.group(1)=='CHECK_FALSE'; e=re.sub(r'\s+',' ',m.group(2)).strip()
        if e.endswith('== false'): neg=not neg; e=e[:-8].strip()
        if e.startswith('!'): neg=not neg; e=e[1:].strip()
        q=re.match(r'^test\.(pathExists|combPathExists)\("([^"]*)", "([^"]*)"\)$',e)
        if q: out.append('.%s (chs "%s") (chs "%s") %s'%({'pathExists':'path','combPathExists':'comb'}[q.group(1)],q.group(2),q.group(3),'false' if neg else 'true')); continue
        q=re.match(r'^test\.hasDriverNamed\("([^"]*)", ?\{(\d+), ?(\d+)\}, "([^"]*)"\)$',e)
        if q: out.append('.named (chs "%s") %s %s (chs "%s") %s'%(q.group(1),q.group(2),q.group(3),q.group(4),'false' if neg else 'true')); continue
        q=re.match(r'^test\.(?:graph\.)?getDrivers\("([^"]*)", ?(?:DriverBitRange)?\{(\d+), ?(\d+)\}\)\.size\(\) (>=|==) (\d+)$',e)
        if q and not neg: out.append('.%s (chs "%s") %s %s %s'%({'>=':'atLeast','==':'exactly'}[q.group(4)],q.group(1),q.group(2),q.group(3),q.group(5))); continue
        q=re.match(r'^test\.(?:graph\.)?getDrivers\("([^"]*)", ?\{(\d+), ?(\d+)\}\)\[0\] != test\.(?:graph\.)?getDrivers\("([^"]*)", ?\{(\d+), ?(\d+)\}\)\[0\]$',e)
        if q and not neg: out.append('.distinct (chs "%s") %s %s (chs "%s") %s %s'%q.groups()); continue
        if 'renderDot' in e: continue
        q=re.match(r'^test\.graph\.numNodes\(\) (==|>) (\d+)$',e)
        if q: out.append('.%s %s'%({'==':'nodes','>':'moreNodes'}[q.group(1)],q.group(2))); continue
        q=re.match(r'^(?:cycles\.size\(\) == (\d+)|cycles\.empty\(\))$',e)
        if q: out.append('.loops %s'%(q.group(1) or 0)); continue
        q=re.match(r'^test\.graph\.getBlackBoxCoverage\(\*test\.graph\.lookup\("(.*?)"\)\) == BlackBoxCoverage::(\w+)$',e)
        if q: out.append('.cover (chs "%s") .%s'%(q.group(1),q.group(2).lower())); continue
        left.append(e)
    return out,left
def opts(b):
    o=[]
    if '.resolveAssignBits = false' in b: o.append('resolveBits := false')
    if '.propCutsAcrossPorts = false' in b: o.append('propCuts := false')
    m=re.search(r'\.blackBoxes = \{(.*?)\}',b,re.S)
    if m: o.append('boxes := [%s]'%', '.join('chs "%s"'%x for x in re.findall(r'"(.*?)"',m.group(1))))
    return o
EXTRA={('ConcatTests.cpp', 70): ['.named (chs "m.a") 4 4 (chs "m.b") false', '.named (chs "m.a") 5 5 (chs "m.b") false', '.named (chs "m.a") 6 6 (chs "m.b") false', '.named (chs "m.a") 7 7 (chs "m.b") false'], ('ConcatTests.cpp', 90): ['.named (chs "m.a") 4 4 (chs "m.b") false', '.named (chs "m.a") 5 5 (chs "m.b") false', '.named (chs "m.a") 6 6 (chs "m.b") false', '.named (chs "m.a") 7 7 (chs "m.b") false'], ('ConcatTests.cpp', 569): ['.named (chs "m.u.i") 4 4 (chs "m.z") false', '.named (chs "m.u.i") 5 5 (chs "m.z") false', '.named (chs "m.u.i") 6 6 (chs "m.z") false', '.named (chs "m.u.i") 7 7 (chs "m.z") false'], ('ConcatTests.cpp', 813): ['.named (chs "m.r") 0 0 (chs "m.a") false', '.named (chs "m.r") 1 1 (chs "m.b") false', '.named (chs "m.r") 2 2 (chs "m.a") false', '.named (chs "m.r") 3 3 (chs "m.b") false', '.named (chs "m.r") 4 4 (chs "m.a") false', '.named (chs "m.r") 5 5 (chs "m.b") false'], ('BlackBoxTests.cpp', 322): ['.boxes [chs "top.u_mux"]'], ('BlackBoxTests.cpp', 356): ['.boxes [chs "top.u_a", chs "top.u_b"]'], ('BlackBoxTests.cpp', 472): ['.boxes []'], ('BlackBoxTests.cpp', 409): ['.coverKind .assignment .outside'], ('BlackBoxTests.cpp', 431): ['.coverWith (chs "top.u_mid") (chs "top.u_mid.i") .boundary', '.coverWith (chs "top.u_mid") (chs "top.u_mid.o") .boundary', '.coverWith (chs "top.u_mid") (chs "top.u_mid.q") .contained', '.coverWith (chs "top.u_mid") (chs "top.u_mid.u_leaf.i") .contained', '.coverWith (chs "top.u_mid") (chs "top.a") .outside'], ('CombLoopTests.cpp', 4): ['.loop 4 2'], ('ConditionalTests.cpp', 311): ['.kinds .conditional 0'], ('MiscTests.cpp', 3): ['.noEdges'], ('MiscTests.cpp', 290): ['.edgesTo (chs "m.a") .assignment 2'], ('MiscTests.cpp', 332): ['.kinds .assignment 1'], ('SequentialStateTests.cpp', 255): ['.clocked (chs "m.clk") (chs "m.b") .posEdge 1', '.clocked (chs "m.clk") (chs "m.b") .none 0'], ('SequentialStateTests.cpp', 270): ['.clocked (chs "m.clk") (chs "m.b") .posEdge 1', '.clocked (chs "m.rst_n") (chs "m.b") .negEdge 1'], ('SequentialStateTests.cpp', 288): ['.someClock (chs "m.b") .posEdge'], ('SequentialStateTests.cpp', 323): ['.stateSources (chs "m.b") [(chs "m.clk", .posEdge), (chs "m.rst_n", .negEdge)]'], ('SequentialStateTests.cpp', 364): ['.sources (chs "m.a") [(chs "m.clk", .posEdge)]'], ('SequentialStateTests.cpp', 388): ['.sources (chs "m.a") []'], ('SequentialStateTests.cpp', 401): ['.sources (chs "m.a") [(chs "m.clk", .posEdge)]'], ('SequentialStateTests.cpp', 424): ['.noClock'], ('CombFanTests.cpp', 23): ['.fanOut (chs "m.a") [chs "m.a", chs "m.x", chs "m.y"] []'], ('CombFanTests.cpp', 40): ['.fanIn (chs "m.y") [chs "m.a", chs "m.b", chs "m.y"] []'], ('CombFanTests.cpp', 56): ['.fanOut (chs "m.a") [chs "m.x"] [chs "m.y"]'], ('CombFanTests.cpp', 73): ['.fanIn (chs "m.y") [chs "m.b", chs "m.y"] [chs "m.a"]'], ('CombFanTests.cpp', 92): ['.fanOutSelf (chs "m.b")'], ('CombFanTests.cpp', 106): ['.fanInSelf (chs "m.a")'], ('ConstantDriverTests.cpp', 26): ['.consts [(4, chs "4\'b101")]'], ('ConstantDriverTests.cpp', 42): ['.consts [(4, chs "4\'b0")]'], ('ConstantDriverTests.cpp', 58): ['.consts []'], ('ConstantDriverTests.cpp', 69): ['.consts [(3, chs "3\'b101")]'], ('ConstantDriverTests.cpp', 87): ['.consts [(4, chs "4\'b0")]'], ('ConstantDriverTests.cpp', 105): ['.kinds .constant 2'], ('DriverTests.cpp', 148): ['.bits (chs "m.y") 3 0 [(0, 1), (2, 3)]'], ('DriverTests.cpp', 161): ['.bits (chs "m.y") 2 2 [(2, 2)]'], ('DriverTests.cpp', 170): ['.bits (chs "m.u") 3 0 []'], ('NetlistTests.cpp', 3): ['.kinds .port 2', '.kinds .assignment 1'], ('NetlistTests.cpp', 123): ['.absent (chs "nonexistent.path")', '.absent (chs "m.nonexistent")', '.absent []'], ('NetlistTests.cpp', 136): ['.range (chs "m.a") 0 0 [.port]'], ('NetlistTests.cpp', 149): ['.range (chs "m.a") 5 3 [.port]'], ('NetlistTests.cpp', 162): ['.range (chs "m.a") 7 4 []'], ('NetlistTests.cpp', 175): ['.range (chs "m.nonexistent") 0 0 []'], ('NetlistTests.cpp', 188): ['.range (chs "m.b") 0 0 [.port, .state]'], ('NetlistTests.cpp', 213): ['.found (chs "m.*") 4', '.found (chs "m.a") 1', '.found (chs "m.?") 4', '.found (chs "z.*") 0'], ('NetlistTests.cpp', 238): ['.foundAtLeast (chs "top.u0.*") 2', '.found (chs "top.*") 2', '.found (chs "top.**") 4', '.found (chs "top...") 4', '.found (chs "**") 4', '.found (chs "...") 4', '.found (chs "*") 0'], ('InstanceTests.cpp', 497): ['.ports (chs "top.a") .input 2', '.ports (chs "top.b") .input 2', '.ports (chs "top.c") .output 2', '.ports (chs "top.d") .output 2', '.ports (chs "top.u1.mi") .input 2', '.ports (chs "top.u1.mo") .output 2', '.ports (chs "top.u2.mi") .input 2', '.ports (chs "top.u2.mo") .output 2', '.ports (chs "top.u1.l0.x") .input 1', '.ports (chs "top.u1.l0.y") .output 1', '.ports (chs "top.u1.l1.x") .input 1', '.ports (chs "top.u1.l1.y") .output 1', '.ports (chs "top.u2.l0.x") .input 1', '.ports (chs "top.u2.l0.y") .output 1', '.ports (chs "top.u2.l1.x") .input 1', '.ports (chs "top.u2.l1.y") .output 1']}
files=sys.argv[2:]
mode=sys.argv[1]
used=set(); res=[]
def camel(t):
    ws=re.findall(r'[A-Za-z0-9]+',t)[:6]
    n=ws[0].lower()+''.join(w.capitalize() for w in ws[1:])
    if n[0].isdigit(): n='t'+n
    k=n;i=2
    while k in used: k=n+str(i); i+=1
    used.add(k); return k
skipped=[]
for f in files:
    for f,l0,l1,title,body in tests(f):
        src=re.findall(r'R"\((.*?)\)"',body,re.S)
        cs,left=checks(body)
        cs=cs+EXTRA.get((f,l0),[])
        if not cs: skipped.append((f,l0,title,'no checks')); continue
        if not src and 'splitDriversSV' in body: src=[open('/repo/tests/unit/DriverTests.cpp').read().split('splitDriversSV = R"(')[1].split(')"')[0]]
        if not src or 'module' not in src[0]: skipped.append((f,l0,title,'no source')); continue
        try:
            E=Elab(P(src[0]).file()); d=E.design()
        except Unsup as x: skipped.append((f,l0,title,str(x))); continue
        res.append((camel(title),f,l0,l1,title,d,opts(body),cs,left))
if __name__=='__main__':
    o=''
    for name,f,l0,l1,title,d,op,cs,left in res:
        if op: d=d.replace('{ sigs','{ opts := { %s }\n    sigs'%', '.join(op),1)
        def wrap(xs,ind):
            out='';cur=ind
            for k,x in enumerate(xs):
                y=x+(', ' if k<len(xs)-1 else '')
                if len(cur)+len(y)>116: out+=cur.rstrip()+'\n'; cur=ind
                cur+=y
            return out+cur
        o+='/-- %s. tests/unit/%s:%d-%d. -/\ndef %s : Design\' :=\n  %s\n\n'%(title.rstrip('.').replace('-/','- /'),f,l0,l1,name,d)
        body='\n'+wrap(cs,'    ')
        if mode=='eval': o+='#eval report "%s" %s [%s]\n\n'%(name,name,body)
        else: o+='theorem %s_ok : meets %s [%s] = true := by\n  decide +kernel\n\n'%(name,name,body)
    print(o)
    for x in skipped: print('SKIP',x,file=sys.stderr)
    for x in res:
        if x[8]: print('LEFT',x[1],x[2],x[8],file=sys.stderr)
