#!/usr/bin/env python3
"""Run the unit tests of /repo against the Lean model (a check of the model's fidelity, not a proof).

Every `#[test]` function of /repo/crates/*/tests/test_*.rs is translated, statement by statement, to a Lean
definition over `Float`, `Float32` and `Int` that calls the model's functions, and evaluated.  Usage:

    python3 tools/conformance.py OUT_DIR [file-substring]     # writes OUT_DIR/*.lean, runs them, prints a summary
"""
import glob, json, os, re, subprocess, sys
ROOT = os.path.dirname(os.path.dirname(os.path.abspath(__file__)))
PRELUDE = os.path.join(ROOT, 'tools', 'conformance_prelude.txt')

class Skip(Exception): pass

# ---------------------------------------------------------------- lexer
TOK = re.compile(r'''\s+|//[^\n]*|/\*.*?\*/
 |(?P<num>\d[\d_]*(?:\.\d[\d_]*)?(?:[eE][+-]?\d[\d_]*)?(?:_?(?:f32|f64|i8|i16|i32|i64|u8|u16|u32|u64|usize|isize))?|\d[\d_]*\.(?![\w.]))
 |(?P<str>"(?:\\.|[^"\\])*")
 |(?P<life>'[a-z_]+\b(?!'))
 |(?P<id>[A-Za-z_]\w*!?(?!=)|[A-Za-z_]\w*)
 |(?P<op>::|->|=>|==|!=|<=|>=|&&|\|\||\+=|-=|\*=|/=|%=|\.\.=|\.\.|[-+*/%<>=!&|.,;:(){}\[\]#?@])''', re.X | re.S)
def lex(s):
    out, i = [], 0
    while i < len(s):
        m = TOK.match(s, i)
        if not m: raise Skip('lex ' + s[i:i+20])
        if m.lastgroup: out.append((m.lastgroup, m.group(m.lastgroup)))
        i = m.end()
    out.append(('eof', ''))
    return out

# ---------------------------------------------------------------- parser
class P:
    def __init__(s, toks): s.t, s.i = toks, 0
    def peek(s, k=0): return s.t[min(s.i + k, len(s.t) - 1)][1]
    def kind(s): return s.t[s.i][0]
    def next(s): s.i += 1; return s.t[s.i - 1][1]
    def eat(s, x):
        if s.peek() == x: s.i += 1; return True
        return False
    def need(s, x):
        if not s.eat(x): raise Skip(f'expected {x} got {s.peek()}')
    def block(s):
        s.need('{'); st = []
        while not s.eat('}'):
            st.append(s.stmt())
        return st
    def typ(s):
        # swallow a type, return its text
        depth, out = 0, []
        while True:
            p = s.peek()
            if depth == 0 and p in ('=', ';', ',', ')', '{', '>', '|'): break
            if p in ('<', '[', '('): depth += 1
            if p in ('>', ']', ')'): depth -= 1
            out.append(s.next())
        return ''.join(out)
    def pat(s):
        if s.eat('('):
            ps = []
            while not s.eat(')'):
                ps.append(s.pat()); s.eat(',')
            return ('ptuple', ps)
        s.eat('&'); s.eat('mut')
        return ('pid', s.next())
    def stmt(s):
        if s.peek() == '#': raise Skip('attribute')
        if s.eat('use'):
            while s.next() != ';': pass
            return ('nop',)
        if s.eat('let'):
            p = s.pat(); ty = None
            if s.eat(':'): ty = s.typ()
            s.need('='); e = s.expr(); s.need(';')
            return ('let', p, ty, e)
        if s.eat('for'):
            v = s.pat(); s.need('in'); a = s.expr(); incl = s.peek() == '..='
            if s.peek() not in ('..', '..='): raise Skip('for iterator')
            s.next(); b = s.expr(); return ('for', v, a, b, incl, s.block())
        if s.peek() in ('while', 'loop', 'fn', 'struct', 'unsafe', 'macro_rules!', 'const', 'static', 'return'):
            raise Skip('statement ' + s.peek())
        if s.peek() == '{': return ('block', s.block())
        e = s.expr()
        if s.peek() in ('=', '+=', '-=', '*=', '/=', '%='):
            op = s.next(); r = s.expr(); s.need(';')
            return ('assign', op, e, r)
        if s.eat(';'): return ('expr', e)
        if s.peek() == '}': return ('value', e) if e[0] != 'mac' else ('expr', e)
        raise Skip('stmt at ' + s.peek())
    LV = {'||': 1, '&&': 2, '==': 3, '!=': 3, '<': 3, '>': 3, '<=': 3, '>=': 3, '+': 5, '-': 5, '*': 6, '/': 6, '%': 6}
    def expr(s, lv=0, nocmp=False):
        l = s.unary()
        while True:
            o = s.peek()
            if o == 'as': s.next(); t = s.typname(); l = ('as', l, t); continue
            if o not in s.LV or s.LV[o] <= lv: return l
            if nocmp and o in ('<=', '<', '>', '>='): return l
            s.next(); r = s.expr(s.LV[o], nocmp); l = ('bin', o, l, r)
    def typname(s): return s.next()
    def unary(s):
        if s.eat('-'): return ('neg', s.unary())
        if s.eat('!'): return ('not', s.unary())
        if s.eat('&&'): s.eat('mut'); return ('ref', s.unary())
        if s.eat('&'): s.eat('mut'); return ('ref', s.unary())
        if s.eat('*'): return ('deref', s.unary())
        return s.postfix(s.primary())
    def args(s, close):
        a = []
        while not s.eat(close):
            a.append(s.expr()); s.eat(',')
        return a
    def postfix(s, e):
        while True:
            if s.eat('.'):
                n = s.next()
                if re.match(r'^\d+\.\d+$', n):          # tuple field of tuple field
                    a, b = n.split('.'); e = ('field', ('field', e, a), b); continue
                tf = None
                if s.peek() == '::': s.next(); s.need('<'); tf = s.generic()
                if s.eat('('): e = ('call', e, n, s.args(')'), tf)
                else: e = ('field', e, n)
            elif s.eat('['):
                i = s.expr()
                if s.peek() in ('..', '..='): raise Skip('range')
                s.need(']'); e = ('index', e, i)
            elif s.eat('('): e = ('app', e, s.args(')'))
            else: return e
    def generic(s):
        d, out = 1, []
        while d:
            t = s.next()
            if t == '<': d += 1
            if t == '>': d -= 1
            if d: out.append(t)
        return ''.join(out)
    def primary(s):
        k, v = s.t[s.i]
        if k == 'num': s.next(); return ('num', v)
        if k == 'str': s.next(); return ('str', v)
        if v == '(':
            s.next(); a = []; comma = False
            while not s.eat(')'):
                a.append(s.expr()); 
                if s.eat(','): comma = True
            if len(a) == 1 and not comma: return ('paren', a[0])
            return ('tuple', a)
        if v == '[':
            s.next(); a = []
            while not s.eat(']'):
                a.append(s.expr())
                if s.eat(';'):
                    n = s.expr(); s.need(']'); return ('repeat', a[0], n)
                s.eat(',')
            return ('array', a)
        if v == '|':
            s.next(); ps = []
            while not s.eat('|'):
                ps.append(s.pat())
                if s.eat(':'): s.typ()
                s.eat(',')
            return ('lam', ps, s.expr())
        if v == '{':
            b = s.block(); return ('blk', b)
        if v == '<': raise Skip('qualified path')
        if k == 'id':
            if v in ('if', 'match', 'unsafe', 'move'): raise Skip(v)
            s.next()
            if v.endswith('!'):
                c = {'(': ')', '[': ']', '{': '}'}[s.next()]; a = []
                while not s.eat(c):
                    if s.kind() == 'id' and s.peek(1) in ('<=', '<') and s.peek().endswith(('_all', 'diff', 'relative', 'ulps')):
                        nm = s.next(); s.next(); a.append(('tol', nm, s.expr()))
                    else: a.append(s.expr())
                    s.eat(',')
                return ('mac', v, a)
            path, gens = [v], []
            while s.peek() == '::':
                s.next()
                if s.eat('<'): gens.append((len(path), s.generic())); continue
                path.append(s.next())
            return ('path', path, gens)
        raise Skip('primary ' + v)

# ---------------------------------------------------------------- translation
BASE = {'Vector': 'Vec', 'Point': 'Pt', 'Quaternion': 'Quat', 'Complex': 'Cx', 'Unit': "Unit'", 'Euler': 'Euler',
        'Rotation': 'Rotation', 'Isometry': 'Isometry', 'Similarity': 'Similarity', 'Scale': 'Scale', 'Shear': 'Shear',
        'Reflection': 'Reflection', 'Translation': 'Translation', 'Transform': 'Transform', 'Orthographic': 'Orthographic3',
        'Perspective': 'Perspective3'}
def camel(n):
    ps = n.split('_')
    return ps[0] + ''.join(p.capitalize() for p in ps[1:])
def camel_dim(n):
    # from_shear_xy -> fromShearXY
    n = camel(n)
    return re.sub(r'(X|Y|Z)(x|y|z)$', lambda m: m.group(1) + m.group(2).upper(), n)
ALIAS = {'magnitude': 'norm', 'modulus': 'norm', 'modulusSquared': 'normSquared', 'intoInner': 'value', 'abs': 'sabs'}
QC = set('acos acosh arg asin asinh atan atanh exp ln sqrt powf slerp div_left div_right inverse try_inverse is_invertible'.split())
SIGS = {}

class T:
    def __init__(s, text, quat, helpers):
        s.quat, s.helpers, s.arrays = quat, helpers, set()
        sc = re.findall(r'(?<=\d)_?(f32|f64|i8|i16|i32|i64|isize|u8|u16|u32|u64)\b|\b(f32|f64)::', text)
        sc = {a or b for a, b in sc}
        if {'f64'} == sc or not sc: s.S, s.F = 'Float', 'f64'
        elif {'f32'} == sc: s.S, s.F = 'Float32', 'f32'
        elif 'f64' in sc and not 'f32' in sc: s.S, s.F = 'Float', 'f64'
        elif 'f32' in sc and not 'f64' in sc: s.S, s.F = 'Float32', 'f32'
        elif sc and not (sc & {'f32', 'f64'}): s.S, s.F = 'Int', 'i'
        else: raise Skip('mixed scalars')
    def num(s, v):
        m = re.match(r'^([\d_.eE+-]*?\d\.?)_?(f32|f64|i8|i16|i32|i64|u8|u16|u32|u64|usize|isize)?$', v)
        lit, suf = m.group(1).replace('_', ''), m.group(2)
        if lit.endswith('.'): lit += '0'
        if suf in ('f64', 'f32'): return f"({lit} : {'Float' if suf == 'f64' else 'Float32'})"
        if suf == 'usize': return lit
        if suf: return f'({lit} : Int)'
        if '.' in lit or 'e' in lit.lower(): return f'({lit} : {s.S})'
        return lit
    def e(s, x):
        k = x[0]
        if k == 'num': return s.num(x[1])
        if k == 'paren': return '(' + s.e(x[1]) + ')'
        if k in ('ref', 'deref'): return s.e(x[1])
        if k == 'neg': return '(-' + s.e(x[1]) + ')'
        if k == 'not': return '(!' + s.e(x[1]) + ')'
        if k == 'bin':
            o = x[1]; a, b = s.e(x[2]), s.e(x[3])
            if o in '*/+-%':
                a, b = (f'({t} : {s.S})' if t.isdigit() else t for t in (a, b))
            if o == '==': return f'(Conf.eq {a} {b})'
            if o == '!=': return f'(!(Conf.eq {a} {b}))'
            if o in ('<', '<=', '>', '>='): return f'(decide ({a} {dict(zip(["<","<=",">",">="],["<","≤",">","≥"]))[o]} {b}))'
            if o == '%': return f'(Conf.rem {a} {b})'
            return f'({a} {o} {b})'
        if k == 'tuple': return '(' + ', '.join(s.e(a) for a in x[1]) + ')'
        if k == 'array': return '![' + ', '.join(s.e(a) for a in x[1]) + ']'
        if k == 'lam':
            return '(fun ' + ' '.join(p[1] for p in x[1]) + ' => ' + s.e(x[2]) + ')'
        if k == 'blk':
            return '(' + s.stmts(x[1], None).replace('\n  ', '; ') + ')'
        if k == 'as':
            if x[2] in ('f64', 'f32'): return f'(Conf.cast {s.arg(x[1])} : {s.S})'
            raise Skip('as ' + x[2])
        if k == 'path': return s.path(x, None)
        if k == 'app':
            if x[1][0] == 'path': return s.path(x[1], x[2])
            raise Skip('app')
        if k == 'index':
            i = s.e(x[2]); r = s.e(x[1])
            if x[2][0] == 'tuple': return f'(Conf.un ({r}.index {i}))'
            return f'(Conf.idx {r} {i})'
        if k == 'field':
            r = s.e(x[1]); n = x[2]
            if n.isdigit(): return f'(Conf.f{n} {r})'
            return f'({r}.{n})'
        if k == 'call': return s.call(x)
        if k == 'mac': return s.macro(x)
        raise Skip(k)
    def call(s, x):
        _, recv, n, args, tf = x
        if n == 'as_ref': return f'(Conf.asRef {s.e(recv)})'
        if n in ('clone', 'to_owned') and not args: return s.e(recv)
        if n == 'unwrap': return f'(Conf.unwrap {s.e(recv)})'
        if n in ('is_none', 'is_some'): return f'({s.e(recv)}.{camel(n)})'
        if n == 'into': raise Skip('into')
        if n in ('as_mut',): raise Skip(n)
        if n == 'map' and s.isarr(recv): return f'(Conf.amap {s.e(recv)} {s.arg(args[0])})'
        if n == 'map': return f'(Conf.map {s.e(recv)} {s.arg(args[0])})'
        if n in ('row', 'is_diagonal', 'is_symmetric') or n in QC and s.quat: n += '_c'
        r = s.e(recv); a = ' '.join(s.arg(z) for z in args)
        return f'(Conf.un ({r}.{ALIAS.get(camel(n), camel(n))} {a}))'.replace(' ))', '))')
    def isarr(s, x): return x[0] == 'array' or x[0] == 'path' and x[1][0] in s.arrays
    def arg(s, z):
        t = s.e(z)
        return t if re.match(r'^(\(.*\)|\w+|!\[.*\])$', t, re.S) and balanced(t) else '(' + t + ')'
    def ty(s, base, dims):
        if base == 'Mat': return f'Mat {s.S} {dims[0]} {dims[1]}'
        if base in ('Quat', 'Cx', 'Orthographic3', 'Perspective3', 'Radians', 'Degrees'): return f'{base} {s.S}'
        if base == "Unit'" or base == 'Euler': return None
        return f'{base} {s.S} {dims[0]}'
    def path(s, x, args):
        path, gens = x[1], x[2]
        p = '::'.join(path)
        A = [s.arg(a) for a in args] if args is not None else None
        al = ' '.join(A or [])
        if p == 'usize::MAX': return '(2 ^ 64 - 1 : Nat)'
        m = re.match(r'^(?:core::|std::)?(f32|f64)(?:::consts)?::(\w+)$', p)
        if m:
            L = {'f64': 'Float', 'f32': 'Float32'}[m.group(1)]
            if args is not None: return f'({L}.{ALIAS.get(camel(m.group(2)), camel(m.group(2)))} {al})'
            return f'(Conf.c_{m.group(2)} : {L})'
        if len(path) == 1:
            v = path[0]
            if v in ('true', 'false'): return v
            if v == 'None': return 'none'
            if v == 'Some' and A: return f'(some {al})'
            if v in ('Radians', 'Degrees') and A: return f'({v}.mk {al})'
            if args is None and v in s.helpers and v.isupper() or v.startswith('_') and v in s.helpers: return s.helpers[v]
            if args is None: return 'v_' + v if v in ('at', 'end', 'from', 'in', 'open', 'then', 'to', 'have', 'show', 'matrix', 'prefix', 'local', 'variable', 'instance') else v
            if v in s.helpers and not A: return '(' + s.helpers[v] + ')'
            raise Skip('fn ' + v)
        t, f = path[0], path[-1]
        if t == 'Angle': return f'(Angle.{camel(f)} {al})'.replace(' )', ')')
        if t in ('Radians', 'Degrees'):
            if f == 'from': return f'(Conf.to{t} {al})'
            return f'(Angle.{camel_turn(f)} {al} : {t} {s.S})'.replace('  ', ' ')
        m = re.match(r'^([A-Z][A-Za-z]*?)(\d)?(?:x(\d))?$', t)
        if not m: raise Skip('path ' + p)
        b, d1, d2 = m.groups()
        if b == 'Matrix': base, dims = 'Mat', (int(d1), int(d2))
        elif b in BASE: base, dims = BASE[b], (int(d1),) if d1 else ()
        else: raise Skip('path ' + p)
        if base == 'Vec' and f == 'from':
            if args[0][0] == 'tuple': f = 'from_tuple'
            elif args[0][0] == 'array': f = 'from_array'
            elif dims == (1,): f = 'new'
            else: return f'(Conf.toVec {al} : {s.ty(base, dims)})'
        if base == 'Pt' and f == 'from':
            if args[0][0] == 'tuple': f = 'from_tuple'
            elif args[0][0] == 'array': f = 'from_array'
            else: raise Skip('Point::from')
        if base == 'Mat' and f in ('from_rows', 'from_columns') and args[0][0] == 'ref' and args[0][1][0] == 'array': pass
        if f == 'unit_re' : f = 'identity'
        if f == 'one' and base == 'Cx': f = 'identity'
        if f == 'zero' and base in ('Cx', 'Quat'): return f'(0 : {s.ty(base, dims)})'
        if f == 'new' and base == 'Euler': f = 'mk'
        n = camel_dim(f)
        suf = 'x'.join(map(str, dims))
        cands = [n + suf, n + (str(dims[0]) if dims else ''), n]
        for c in cands:
            if f'Cgl.{base}.{c}' in SIGS: n = c; break
        else: raise Skip(f'no model {base}.{n}')
        al2 = al
        ty = SIGS[f'Cgl.{base}.{n}']
        extra = s.extra(base, n)
        expr = f'Cgl.{base}.{n} {extra}{al2}'.strip()
        is_method = args and args[0] is not None and not n.startswith(('from', 'new', 'unit', 'zero', 'identity', 'look', 'rot', 'mk', 'try', 'origin', 'between'))
        rt = s.ty(base, dims)
        res = 'Res' in ty.split('→')[-1]
        if rt and not is_method and 'Option' not in ty.split('→')[-1] and '×' not in ty.split('→')[-1]:
            return f'(Conf.un ({expr}) : {rt})' if res else f'({expr} : {rt})'
        return f'(Conf.un ({expr}))'
    def extra(s, base, n):
        # tolerances the public function passes to the modelled one
        if (base, n) in (('Mat', 'rotationBetween3'), ('Mat', 'rotationBetweenAxis3'), ('Quat', 'rotationBetween'), ('Quat', 'rotationBetweenAxis'),
            ('Rotation', 'rotationBetween'), ('Rotation', 'rotationBetweenAxis'), ('Isometry', 'rotationBetween'), ('Isometry', 'rotationBetweenAxis')):
            return 'Conf.eps '
        if 'ulerAngles' in n and base in ('Mat', 'Rotation'): return 'Conf.toRadians '
        if (base, n) == ('Mat', 'fromRows'): return 'default '
        return ''
    def res(s, x):
        # an index expression, as a computation that may panic
        if x[0] == 'index':
            if x[2][0] == 'tuple': return f'({s.res(x[1])} >>= fun v => v.index {s.e(x[2])})'
            return f'({s.res(x[1])} >>= fun v => Conf.idxR v {s.arg(x[2])})'
        if x[0] == 'path': return f'(Conf.pureR {s.e(x)})'
        raise Skip('panic shape')
    def panics(s, st):
        last = st[-1]
        if last[0] != 'expr' or last[1][0] != 'mac' or last[1][1] != 'assert_eq!': raise Skip('panic shape')
        a = last[1][2][0]
        if a[0] != 'index': raise Skip('panic shape')
        pre = s.stmts(st[:-1] + [('value', ('path', ['true'], []))], None).rsplit('\n', 1)[0]
        return pre + f'\n  Conf.isPanic {s.res(a)}'
    def macro(s, x):
        _, name, args = x
        tol = {a[1]: s.e(a[2]) for a in args if a[0] == 'tol'}
        pos = [a for a in args if a[0] not in ('tol', 'str')]
        if name == 'assert_eq!': return f'(Conf.eq {s.arg(pos[0])} {s.arg(pos[1])})'
        if name == 'assert_ne!': return f'(!(Conf.eq {s.arg(pos[0])} {s.arg(pos[1])}))'
        if name == 'assert!': return s.arg(pos[0])
        if name == 'assert_relative_eq!':
            ab = tol.get('abs_diff_all') or tol.get('abs_diff'); re_ = tol.get('relative_all') or tol.get('relative')
            if ab is None or re_ is None: raise Skip('tolerances')
            return f'(Conf.rel {s.arg(pos[0])} {s.arg(pos[1])} {s.paren(ab)} {s.paren(re_)})'
        raise Skip(name)
    def paren(s, t): return t if t.startswith('(') else '(' + t + ')'
    def pat(s, p):
        if p[0] == 'ptuple': return '(' + ', '.join(s.pat(q) for q in p[1]) + ')'
        return s.path(('path', [p[1]], []), None)
    def ann(s, ty):
        m = re.match(r'^(Vector|Point|Rotation|Shear|Transform|Isometry)(\d)<(f64|f32|i32)>$', ty)
        if m: return f"{BASE[m.group(1)]} {s.S} {m.group(2)}"
        m = re.match(r'^Matrix(\d)x(\d)<(f64|f32|i32)>$', ty)
        if m: return f"Mat {s.S} {m.group(1)} {m.group(2)}"
        m = re.match(r'^(Quaternion|Complex)<(f64|f32|i32)>$', ty)
        if m: return f"{BASE[m.group(1)]} {s.S}"
        m = re.match(r'^(Radians|Degrees)<(f64|f32)>$', ty)
        if m: return f"{m.group(1)} {s.S}"
        m = re.match(r'^Unit<(.*)>$', ty)
        if m: return f"Unit' ({s.ann(m.group(1))})"
        m = re.match(r'^Euler<(.*)>$', ty)
        if m: return f"Euler ({s.ann(m.group(1))})"
        if ty in ('f64', 'f32', 'i32'): return s.S
        return None
    def stmts(s, st, final):
        out = []; checks = []
        for x in st:
            if x[0] == 'nop': continue
            if x[0] == 'let':
                ann = ''
                ty = x[2]
                e = x[3]
                if s.isarr(e) and x[1][0] == 'pid': s.arrays.add(x[1][1])
                if ty and s.ann(ty): ann = ' : ' + s.ann(ty)
                while e[0] == 'ref': e = e[1]
                if ty and e[0] == 'call' and e[2] in ('as_ref', 'into'):
                    if ty.lstrip('&').startswith('['): out.append(f'let {s.pat(x[1])} := Conf.arr {s.arg(e[1])}'); continue
                    if ty.lstrip('&').startswith('('): out.append(f'let {s.pat(x[1])} := Conf.tup {s.arg(e[1])}'); continue
                out.append(f'let {s.pat(x[1])}{ann} := {s.e(x[3])}')
            elif x[0] == 'assign':
                _, op, l, r = x
                if l[0] != 'path':
                    if l[0] == 'field' and l[1][0] == 'path' and op == '=':
                        v = s.e(l[1]); out.append(f'let {v} := Conf.unwrap ({v}.setField "{l[2]}" {s.arg(r)})'); continue
                    raise Skip('assign target')
                v = s.e(l)
                if op == '=': out.append(f'let {v} := {s.e(r)}')
                else:
                    nm = {'+=': 'addAssign', '-=': 'subAssign', '*=': 'mulAssign', '/=': 'divAssign', '%=': 'remAssign'}[op]
                    out.append(f'let {v} := {v}.{nm} {s.arg(r)}')
            elif x[0] == 'expr':
                e = x[1]
                if e[0] == 'mac':
                    n = f'c{len(checks)}'; checks.append(n); out.append(f'let {n} : Bool := {s.macro(e)}')
                elif e[0] == 'call' and e[1][0] == 'path':
                    v = s.e(e[1]); out.append(f'let {v} := {s.call(e)}')
                else: raise Skip('expression statement')
            elif x[0] == 'block':
                n = f'c{len(checks)}'; checks.append(n); out.append(f'let {n} : Bool := ({s.stmts(x[1], True)})')
            elif x[0] == 'for':
                _, v, a, b, incl, body = x
                n = f'c{len(checks)}'; checks.append(n)
                out.append(f"let {n} : Bool := ((Conf.range {s.arg(a)} {s.arg(b)} {'true' if incl else 'false'}).all fun {s.pat(v)} => ({s.stmts(body, True)}))".replace('\n  ', '; '))
            elif x[0] == 'value':
                if final is None: out.append(s.e(x[1])); return '\n  '.join(out)
                raise Skip('value in test')
            else: raise Skip(x[0])
        if final is None: raise Skip('block without value')
        if not checks: raise Skip('no assertion')
        return '\n  '.join(out) + '\n  ' + ' && '.join(checks)
def camel_turn(f):
    return re.sub(r'Div(\d)', r'Div\1', camel(f))
def balanced(t):
    if not t.startswith('('): return True
    d = 0
    for i, c in enumerate(t):
        d += c == '('; d -= c == ')'
        if d == 0 and i < len(t) - 1: return False
    return True

def helper_fns(path):
    src = open(path).read(); mod = ''
    for m in re.finditer(r'\bmod (\w+) \{|((?:#\[[^\]]*\]\s*)*)fn (\w+)\(\) -> ([^{]*)\{|(const) (\w+): ([^=]*)=([^;]*);', src):
        if m.group(1): mod = m.group(1); continue
        if m.group(5): yield mod, m.group(6), m.group(7).strip(), m.group(8).strip(), True; continue
        i = m.end() - 1; d = 0; j = i
        while True:
            c = src[j]
            d += c == '{'; d -= c == '}'
            j += 1
            if d == 0: break
        yield mod, m.group(3), m.group(4).strip(), src[i:j], False
def tests(path):
    src = open(path).read()
    mod = ''
    for m in re.finditer(r'\bmod (\w+) \{|((?:#\[[^\]]*\]\s*)*)fn (\w+)\(\) \{', src):
        if m.group(1): mod = m.group(1); continue
        if '#[test]' not in m.group(2): continue
        i = m.end() - 1; d = 0; j = i
        while True:
            c = src[j]
            d += c == '{'; d -= c == '}'
            j += 1
            if d == 0: break
        yield mod, m.group(3), m.group(2), src[i:j], src[:m.start()].count('\n') + 1

def main():
    out = sys.argv[1]; sub = sys.argv[2] if len(sys.argv) > 2 else ''
    os.makedirs(out, exist_ok=True)
    sigs = os.path.join(os.path.abspath(out), 'signatures.txt'); dump = os.path.join(out, 'signatures.lean')
    open(dump, 'w').write(open(os.path.join(ROOT, 'tools', 'conformance_signatures.txt')).read().replace('SIGS_OUT', sigs))
    subprocess.run(['lake', 'env', 'lean', os.path.abspath(dump)], cwd=os.path.join(ROOT, 'lean'), check=True)
    for l in open(sigs):
        n, _, t = l.rstrip('\n').split('\t'); SIGS[n] = t
    summary = {}
    for f in sorted(glob.glob('/repo/crates/*/tests/test_*.rs')):
        name = os.path.basename(f)[5:-3]
        if sub not in name: continue
        lean = [open(PRELUDE).read()]; skipped = {}; order = []
        helpers = {}
        for mod, fn, ret, body, const in helper_fns(f):
            h = f'h_{mod}_{fn}'
            try:
                tr = T(body, name == 'quaternion', helpers.setdefault(mod, {}))
                code = tr.e(P(lex(body)).expr()) if const else tr.stmts(P(lex(body)).block(), None)
                a = tr.ann(ret.replace(' ', ''))
                lean.append(f"def {h}{' : ' + a if a else ''} :=\n  {code}\n"); helpers[mod][fn] = h
            except Skip as ex: pass
        for k, (mod, fn, attrs, body, line) in enumerate(tests(f)):
            if 'should_panic' in attrs: 
                try:
                    st = P(lex(body)).block(); code = T(body, name == 'quaternion', helpers.get(mod, {})).panics(st)
                    lean.append(f'/- {mod}::{fn} {name}:{line} should panic -/\ndef t{k} : Bool :=\n  {code}\n#eval IO.println s!"RESULT t{k} {{t{k}}}"\n')
                    order.append((f't{k}', f'{mod}::{fn}', line))
                except Skip as ex: skipped[f'{mod}::{fn}'] = 'should_panic: ' + str(ex)
                continue
            try:
                st = P(lex(body)).block(); code = T(body, name == 'quaternion', helpers.get(mod, {})).stmts(st, True)
                lean.append(f'/- {mod}::{fn} {name}:{line} -/\ndef t{k} : Bool :=\n  {code}\n#eval IO.println s!"RESULT t{k} {{t{k}}}"\n')
                order.append((f't{k}', f'{mod}::{fn}', line))
            except Skip as ex: skipped[f'{mod}::{fn}'] = str(ex)
        lean = [re.sub(r'\(Conf\.un \(Cgl\.Shear\.identity\) : (Shear \w+ \d)\)', r'(Conf.un (Cgl.Shear.identity : Res (\1)) : \1)', x) for x in lean]
        lf = os.path.join(os.path.abspath(out), name + '.lean'); open(lf, 'w').write('\n'.join(lean))
        p = subprocess.run(['lake', 'env', 'lean', '-DmaxErrors=100000', lf], cwd=os.path.join(ROOT, 'lean'), capture_output=True, text=True)
        open(os.path.join(out, name + '.log'), 'w').write(p.stdout + p.stderr)
        res = dict(re.findall(r'RESULT (t\d+) (true|false)', p.stdout))
        ok = [n for t, n, l in order if res.get(t) == 'true']
        bad = [(n, l) for t, n, l in order if res.get(t) == 'false']
        err = [(n, l) for t, n, l in order if t not in res]
        summary[name] = dict(passed=len(ok), failed=bad, not_elaborated=err, skipped=skipped)
        print(name, 'passed', len(ok), 'failed', len(bad), 'not elaborated', len(err), 'skipped', len(skipped))
    json.dump(summary, open(os.path.join(out, 'summary.json'), 'w'), indent=1)
if __name__ == '__main__': main()
