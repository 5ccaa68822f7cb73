"""Random comparison of the model of Python's standard library with Python itself (3.11): `stdlib_check.py SEED COUNT > X.lean; lake env lean X.lean`
prints nothing but `all agree` if they agree. No code of /repo is run. These are tests of the model's assumptions, not proofs."""
import random, sys, datetime, itertools
from urllib.parse import urljoin, quote, urlparse
rng = random.Random(int(sys.argv[1])); N = int(sys.argv[2])
def L(s): return '[' + ','.join(str(x if isinstance(x, int) else ord(x)) for x in s) + ']'
def LL(xs): return '[' + ','.join(L(x) for x in xs) + ']'
def opt(f, *a, exc=Exception):
    try: return 'some ' + L(f(*a))
    except exc: return 'none'
out = []
def case(name, lhs, rhs): out.append('("%s", decide ((%s) = (%s)))' % (name, lhs, rhs))
frag = ['http:', 'HTTP:', 'urn:', 'mailto:', 'ftp:', 'x-y:', 'file:', '//', '//h', '//h:8', '/', '/', '.', '..', './', '../', 'a', 'b', 'c', ';p', ';', '?q', '?', '#f', '#', ' ', '\t', 'é', '%41', '1', 'sip:', ':', '@', '//[::1]', '//[x]', '//[', ']', 'tel:', 'svn+ssh:', '']
def url(): return ''.join(rng.choice(frag) for _ in range(rng.randrange(9)))
def nlok(u):
    try: urlparse(u); return True
    except ValueError: return False
def nl(*us):
    # the model takes the check of the network location as a parameter
    bad = []
    for u in us:
        v = u.lstrip(''.join(map(chr, range(33))))
        for c in '\t\r\n': v = v.replace(c, '')
        i = v.find('//')
        for w in [v] + ([v[i:]] if i >= 0 else []):
            if w.startswith('//'):
                n = w[2:]
                for d in '/?#': n = n.split(d)[0]
                if not nlok('//' + n): bad.append(n)
    return '(fun n => !(%s : List PStr).contains n)' % LL(bad)
chars = ['a', 'b', '"', "'", '\\', '\n', '\t', '\r', '\x00', '\x1f', '\x7f', '\x80', 'é', 'ࠀ', '\ud800', '\udfff', '￿', '\U00010000', '\U0010ffff', '%', ' ', '~', '<', '|', ':']
def text(k=8, cs=chars): return ''.join(rng.choice(cs) for _ in range(rng.randrange(k)))
bytes_ = [0, 0x41, 0x7f, 0x80, 0xbf, 0xc0, 0xc1, 0xc2, 0xdf, 0xe0, 0xa0, 0x9f, 0xed, 0xef, 0xf0, 0x90, 0x8f, 0xf4, 0xf5, 0xff, 0xe1, 0xf1]
R = "%:/?#[]@!$&'()*+,;="
for _ in range(N):
    b, u = url(), url()
    case('urljoin', 'match urljoin %s %s %s with | .ok s => some s | .error _ => none' % (nl(b, u), L(b), L(u)), opt(urljoin, b, u, exc=ValueError))
    s = text()
    case('utf8Encode', 'utf8Encode ' + L(s), opt(lambda: s.encode('utf-8')))
    bs = bytes(rng.choice(bytes_) for _ in range(rng.randrange(6)))
    case('utf8Decode', 'utf8Decode ' + L(bs), opt(lambda: bs.decode('utf-8')))
    try: bs = text(4).encode('utf-8'); case('utf8Decode', 'utf8Decode ' + L(bs), opt(lambda: bs.decode('utf-8')))
    except UnicodeEncodeError: pass
    t, o, n = text(9, 'aab'), text(3, 'ab'), text(3, 'abc')
    if o: case('replace', 'pyReplace %s %s %s' % (L(t), L(o), L(n)), L(t.replace(o, n)))
    a, m, z = t.partition('b')
    case('partition', 'pyPartition 98 ' + L(t), '(%s,%s,%s)' % (L(a), L(m), L(z)))
    case('startswith', 'pyStartsWith %s %s' % (L(t), L(o)), str(t.startswith(o)).lower())
    case('endswith', 'pyEndsWith %s %s' % (L(t), L(o)), str(t.endswith(o)).lower())
    q = text(8, [c for c in map(chr, range(128))])
    case('quote', 'List.flatMap quoteChar ' + L(q), L(quote(q, safe=R)))
    k = rng.choice([rng.randrange(300), rng.randrange(70000), rng.randrange(0x110000)])
    case('%02X', 'fmt02X %d' % (k % 256), L('%02X' % (k % 256)))
    case('%04X', 'fmt04X %d' % (k % 65536), L('%04X' % (k % 65536)))
    case('%08X', 'fmt08X %d' % k, L('%08X' % k))
    case('hex', 'hexDigits %d' % k, L('%x' % k)); case('str(int)', 'decDigits %d' % k, L(str(k)))
    h = '%x' % k; h = rng.choice([h, h.upper()])
    case('int16', 'parseHex ' + L(h), str(int(h, 16)))
    pr = '(fun c => (%s : List Nat).contains c)' % L([c for c in s if c.isprintable()])
    case('repr', 'strRepr %s %s' % (pr, L(s)), L(repr(s)))
    off = rng.choice([None, 0, 60, -60, 3600, 19800, -12600, 1, -1, 86399, -86399, 0.000001, -1.5, 3661.000007])
    tz = None if off is None else datetime.timezone(datetime.timedelta(seconds=off))
    d = datetime.datetime(rng.randrange(1, 10000), rng.randrange(1, 13), rng.randrange(1, 29), rng.randrange(24), rng.randrange(60), rng.randrange(60), rng.choice([0, 1, 500000, 999999, rng.randrange(1000000)]), tz)
    mo = 'none' if off is None else 'some (%d)' % (d.utcoffset() // datetime.timedelta(microseconds=1))
    case('isoformat', 'DateTime.isoformat {year:=%d,month:=%d,day:=%d,hour:=%d,minute:=%d,second:=%d,micro:=%d,offset:=%s}' % (d.year, d.month, d.day, d.hour, d.minute, d.second, d.microsecond, mo), L(d.isoformat()))
    xs = list(range(1, rng.randrange(1, 12))); g = rng.randrange(1, 5)
    case('zip_longest', 'grouper %s %d 0' % (L(xs), g), LL(itertools.zip_longest(*[iter(xs)] * g, fillvalue=0)))
    # classes: number 0 is the root; each further one has random bases
    cs = [type('K0', (), {})]; mros = [[0]]
    for i in range(1, 9):
        bases = [rng.randrange(len(cs)) for _ in range(rng.choice([1, 1, 2, 2, 3]))]
        w = '({World.new with classes := (%s : List (List Nat)).map fun m => {name := [], prefixes := [], scalars := [], mro := m}} : World)' % LL(mros)
        try:
            c = type('K%d' % len(cs), tuple(cs[b] for b in bases), {})
            mro = [len(cs) if k is c else cs.index(k) for k in c.__mro__[:-1]]
            case('mro', 'mroOf %s %d %s' % (w, len(cs), L(bases)), 'some ' + L(mro))
            cs.append(c); mros.append(mro)
        except TypeError:
            case('mro', 'mroOf %s %d %s' % (w, len(cs), L(bases)), 'none')
print('import Verif\nopen Verif\nset_option maxRecDepth 100000')
names = []
for i in range(0, len(out), 50):
    names.append('c%d' % i)
    print('def c%d : List (String × Bool) := [\n%s]' % (i, ',\n'.join(out[i:i + 50])))
print('def bad := ([%s].flatten.zipIdx.filter fun x => !x.1.2).map fun x => (x.1.1, x.2)' % ','.join(names))
print('#eval IO.println (if bad.isEmpty then "all agree" else toString bad)')
