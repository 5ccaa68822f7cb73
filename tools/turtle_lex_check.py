import re, random, sys
try:
    import sre_parse
except ImportError:
    import re._parser as sre_parse
HEX='[0-9A-Fa-f]'
UCHAR=r'(?:\\u%s{4}|\\U%s{8})'%(HEX,HEX)
ECHAR=r'''\\[tbnrf"'\\]'''
WS=r'[\x20\x09\x0D\x0A]'
BASE=r'[A-Za-z\u00C0-\u00D6\u00D8-\u00F6\u00F8-\u02FF\u0370-\u037D\u037F-\u1FFF\u200C-\u200D\u2070-\u218F\u2C00-\u2FEF\u3001-\uD7FF\uF900-\uFDCF\uFDF0-\uFFFD\U00010000-\U000EFFFF]'
U='(?:%s|_)'%BASE
PC='(?:%s|[\\-0-9\\u00B7\\u0300-\\u036F\\u203F-\\u2040])'%U
PFX='%s(?:(?:%s|\\.)*%s)?'%(BASE,PC,PC)
ESC=r"\\[_~\.\-!$&'()*+,;=\/?#@%]"
PLX='(?:%%%s{2}|%s)'%(HEX,ESC)
LOCAL='(?:%s|:|[0-9]|%s)(?:(?:%s|\\.|:|%s)*(?:%s|:|%s))?'%(U,PLX,PC,PLX,PC,PLX)
NS='(?:%s)?:'%PFX
EXP='[eE][+-]?[0-9]+'
T=dict(
 IRIREF=r'<(?:[^\x00-\x20<>"{}|^`\\]|%s)*>'%UCHAR,
 PNAME_NS=NS, PNAME_LN=NS+LOCAL,
 LABEL='_:(?:%s|[0-9])(?:(?:%s|\\.)*%s)?'%(U,PC,PC),
 LANGTAG='@[a-zA-Z]+(?:-[a-zA-Z0-9]+)*',
 INTEGER='[+-]?[0-9]+', DECIMAL=r'[+-]?[0-9]*\.[0-9]+',
 DOUBLE=r'[+-]?(?:[0-9]+\.[0-9]*%s|\.[0-9]+%s|[0-9]+%s)'%(EXP,EXP,EXP),
 SQ=r'"(?:[^\x22\\\x0A\x0D]|%s|%s)*"'%(ECHAR,UCHAR),
 SSQ=r"'(?:[^\x27\\\x0A\x0D]|%s|%s)*'"%(ECHAR,UCHAR),
 LSQ=r"'''(?:(?:'|'')?(?:[^'\\]|%s|%s))*'''"%(ECHAR,UCHAR),
 LQ=r'"""(?:(?:"|"")?(?:[^"\\]|%s|%s))*"""'%(ECHAR,UCHAR),
 ANON=r'\[(?:%s)*\]'%WS,
 A='a',BOOL='true|false',KB='(?i:BASE)',KP='(?i:PREFIX)',
 ATP='@prefix',ATB='@base',DOT=r'\.',COMMA=',',SEMI=';',LB=r'\[',RB=r'\]',LP=r'\(',RP=r'\)',CARETS=r'\^\^',
 WS=WS,COMMENT='#[^\n]*')
names=sorted(T,key=lambda n:(-sre_parse.parse(T[n]).getwidth()[1],-len(T[n]),n))
node=['IRIREF','PNAME_LN','PNAME_NS','LABEL','ANON','LB','LP']
start=None
body=node+['A','BOOL','INTEGER','DECIMAL','DOUBLE','SQ','SSQ','LSQ','LQ','DOT','COMMA','SEMI','RB','RP']
start=[b for b in body if b not in('A','BOOL')]+['ATP','ATB','KB','KP']
acc=dict(start=start,body=body,lit=body+['LANGTAG','CARETS'],ns=['PNAME_NS'],ns2=['PNAME_NS'],iri2=['IRIREF'])
rx={c:re.compile('|'.join('(?P<%s>%s)'%(n,T[n]) for n in names if n in a+['WS','COMMENT'])) for c,a in acc.items()}
def nxt(c,k):
    if c=='ns':return 'body'
    if c=='ns2':return 'iri2'
    if c=='iri2':return 'start'
    return {'DOT':'start','ATP':'ns','KB':'iri2','KP':'ns2','SQ':'lit','SSQ':'lit','LSQ':'lit','LQ':'lit'}.get(k,'body')
def lex(s):
    c='start';i=0;out=[]
    while i<len(s):
        m=rx[c].match(s,i)
        if not m: return None
        k=m.lastgroup; t=m.group(); i=m.end()
        if k in('WS','COMMENT'): continue
        out.append((k,t,c)); c=nxt(c,k)
    return out
def L(t): return '['+','.join(str(ord(x)) for x in t)+']'
def tok(k,t,c):
    if k=='IRIREF': return '.iri (.ref %s)'%L(t[1:-1])
    if c in('ns','ns2'): return '.ns %s'%L(t[:-1])
    if k in('PNAME_LN','PNAME_NS'):
        a,_,b=t.partition(':'); return '.iri (.pname %s %s)'%(L(a),L(b))
    if k=='LABEL': return '.label '+L(t)
    if k in('SQ','SSQ'): return '.str '+L(t[1:-1])
    if k in('LSQ','LQ'): return '.str '+L(t[3:-3])
    if k=='LANGTAG': return '.lang '+L(t[1:])
    if k=='BOOL': return '.bool '+L(t)
    if k in('INTEGER','DECIMAL','DOUBLE'): return '.num .%s %s'%(k.lower(),L(t))
    return {'ANON':'.anon','A':'.kwA','KB':'.kwBase','KP':'.kwPrefix','ATP':'.atPrefix','ATB':'.atBase','DOT':'.dot','COMMA':'.comma','SEMI':'.semi','LB':'.lbr','RB':'.rbr','LP':'.lpar','RP':'.rpar','CARETS':'.carets'}[k]
frag=['@prefix','@base','BASE','PREFIX','base','prefix','BA\u017fE','<a>','<http://x/#>','<\\u0041>','<\\U00000041>','<a b>',' ','\n','\t','#c\n','#','p:','p:a','p:a.b','p:a.',':','::x','p:%41','p:%4','p:\\~','p:\\t','p.q:r','p.:','_:a','_:a.','_:1.b','_:','[',']','[ ]','[\n]','(',')',',',';','.','"','""','"""','\'','\'\'\'','"a"','"a\\"b"','"\\u00e9"','"\\x"','\\','@en','@en-GB','@en-','^^','^','1','1.5','1.','.5','1e5','1.e5','.5E-3','+1','-.5','e5','a','true','false','truex','a:b','é:ü','·','\u0300','p-q:x','1:2','%41','--','x','u','\U00010000:x','b\n"']
rng=random.Random(int(sys.argv[1]))
print('import Verif.Model.TurtleLex\nopen Verif Verif.Turtle\ndef ctxOf (b : Ctx) := b\nset_option maxRecDepth 100000')
rows=[]
okc=0
while len(rows)<int(sys.argv[2]):
    s=''.join(rng.choice(frag) for _ in range(rng.randint(1,9)))
    if rng.random()<0.3 and s:
        i=rng.randrange(len(s)); s=s[:i]+s[i+1:]
    if rng.random()<0.5: s='<s> '+s
    r=lex(s)
    if r is None and rng.random()<0.7: continue
    okc+= r is not None
    rows.append('(%s, %s)'%(L(s),'none' if r is None else 'some ['+','.join(tok(*x) for x in r)+']'))

n=0
for j in range(0,len(rows),40):
    print('def cases%d : List (PStr × Option (List Tok)) := [\n'%n+',\n'.join(rows[j:j+40])+']'); n+=1
print('def cases := '+' ++ '.join('cases%d'%k for k in range(n)))
print('def bad := cases.filter fun c => decide ((match lex c.1 with | .ok t => some t | .error _ => none) ≠ c.2)')
print('#eval (cases.length, bad.length)')
print('#eval bad.map fun c => String.ofList (c.1.map Char.ofNat)')
print('-- ok',okc,file=sys.stderr)
