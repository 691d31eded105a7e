#!/usr/bin/env python3
"""Translate the `#[app]` / `#[mock_app]` modules of /repo/rtic-macros/ui/*.rs and /repo/examples/lm3s6965/examples/*.rs into
terms of `Verif.Front` and write lean/Verif/Front/Ui.lean and lean/Verif/Front/Examples.lean.

Bodies of functions are skipped. Types and initial values inside `local = [..]`, and the path after `device =`, become one
token each, which `uiSyn` (Ui.lean) reads back: reading them is the business of the crate `syn`."""
import re, glob, os

KW = dict(init=1, idle=2, task=3, shared=4, local=5, cfg=6, doc=7, lock_free=8, Context=9, static=10, _=11, Rust=12,
          binds=13, priority=14, local_task=15, device=16, core=17, peripherals=18, dispatchers=19, backend=20)
EXC = ["SysTick", "SVCall", "PendSV", "MemoryManagement", "BusFault", "UsageFault", "SecureFault", "DebugMonitor"]
FIXED = ["NonMaskableInt", "HardFault"]
ids = dict(KW)
for k, e in enumerate(EXC): ids[e] = 900 + k
for k, e in enumerate(FIXED): ids[e] = 950 + k

def num(name):
    if name not in ids: ids[name] = 1000 + len(ids)
    return ids[name]

TOK = re.compile(r'''(?P<ws>\s+|//[^\n]*|/\*.*?\*/)|(?P<str>b?"(?:\\.|[^"\\])*")|(?P<life>'[A-Za-z_]\w*(?!'))|(?P<chr>b?'(?:\\.|[^'\\])+')|(?P<num>\d[\w]*(?:\.\d+)?)|(?P<id>[A-Za-z_]\w*)|(?P<p>::|->|=>|==|\.\.|[-!#$%&*+,./:;<=>?@^|~(){}\[\]])''', re.S)

def lex(s):
    out, i = [], 0
    while i < len(s):
        m = TOK.match(s, i)
        assert m, s[i:i+40]
        if m.lastgroup != 'ws': out.append((m.lastgroup, m.group()))
        i = m.end()
    return out

CL = {'(': ')', '[': ']', '{': '}'}
def tree(ts, i=0, close=None):
    out = []
    while i < len(ts):
        k, t = ts[i]
        if t in CL and k == 'p':
            inner, i = tree(ts, i + 1, CL[t])
            out.append((t, inner))
        elif k == 'p' and t == close: return out, i + 1
        else: out.append((k, t)); i += 1
    return out, i

def is_p(t, c): return t == ('p', c)

# ---- tokens of attributes

def attr_path(g):
    segs = [t for k, t in g if k == 'id']
    return segs

def split_top(ts, sep):
    """positions of `sep` outside of angle brackets"""
    out, cur, d = [], [], 0
    for t in ts:
        if is_p(t, '<'): d += 1
        if is_p(t, '>'): d -= 1
        if is_p(t, sep) and d == 0: out.append(cur); cur = []
        else: cur.append(t)
    out.append(cur)
    return out

opaque = [0]
def fresh():
    opaque[0] += 1
    return opaque[0]

def int_tok(t):
    m = re.match(r'(0x[0-9a-fA-F_]+|[0-9_]+)(.*)$', t)
    return '.int %d %s' % (int(m.group(1).replace('_', ''), 0), 'true' if m.group(2) else 'false')

def simple(t):
    k, v = t
    if k == 'id':
        if v in ('true', 'false'): return '.bool ' + v
        if v in ('mut', 'super', 'crate', 'self'): return '.other %d' % (10 * fresh() + 4)
        return '.ident %d' % num(v)
    if k == 'num': return int_tok(v)
    if k == 'p': return {'=': '.eq', ',': '.comma', ':': '.colon', '&': '.amp'}.get(v) or '.other %d' % (10 * fresh() + 4)
    if k == '[': return '.bracket [%s]' % ', '.join(toks(v))
    return '.other %d' % (10 * fresh() + 4)

def ty_tok(ts):
    if len(ts) == 1 and ts[0][0] == 'id': return [simple(ts[0])]
    k = 4
    if ts[0][0] == '[' and len(ts) == 1: k = 0
    elif ts[0][0] == 'id' or is_p(ts[0], '::'): k = 1
    elif is_p(ts[0], '*'): k = 2
    elif ts[0][0] == '(' and len(ts) == 1: k = 3
    return ['.other %d' % (10 * fresh() + k)]

def expr_tok(ts):
    if len(ts) == 1 and ts[0][0] in ('id', 'num'): return [simple(ts[0])]
    return ['.other %d' % (10 * fresh() + 4)]

def local_entry(ts):
    out = []
    i = 0
    while i + 1 < len(ts) and is_p(ts[i], '#') and ts[i + 1][0] == '[':
        out.append('.attr { path := Path.just %d }' % num(attr_path(ts[i + 1][1])[0])); i += 2
    ts = ts[i:]
    if len(ts) >= 2 and ts[0][0] == 'id' and is_p(ts[1], ':'):
        out += [simple(ts[0]), '.colon']
        parts = split_top(ts[2:], '=')
        if parts[0]: out += ty_tok(parts[0])
        if len(parts) > 1:
            out.append('.eq')
            rest = ts[2 + len(parts[0]) + 1:]
            if rest: out += expr_tok(rest)
        return out
    return out + [simple(t) for t in ts]

def toks(ts, after=None):
    out, i = [], 0
    while i < len(ts):
        t = ts[i]
        if i >= 2 and is_p(ts[i - 1], '=') and ts[i - 2] == ('id', 'local') and t[0] == '[':
            es = split_top(t[1], ',')
            inner = []
            for j, e in enumerate(es):
                inner += local_entry(e)
                if j + 1 < len(es): inner.append('.comma')
            out.append('.bracket [%s]' % ', '.join(inner)); i += 1; continue
        if i >= 2 and is_p(ts[i - 1], '=') and ts[i - 2] == ('id', 'device'):
            j = i
            while j < len(ts) and not is_p(ts[j], ','): j += 1
            out.append('.ident %d' % num('::'.join(v for k, v in ts[i:j] if k == 'id'))); i = j; continue
        if is_p(t, '#') and i + 1 < len(ts) and ts[i + 1][0] == '[':
            out.append('.attr { path := Path.just %d }' % num(attr_path(ts[i + 1][1])[0])); i += 2; continue
        out.append(simple(t)); i += 1
    return out

def path_lean(segs):
    return 'Path.just %d' % num(segs[0]) if len(segs) == 1 else '{ segs := [%s] }' % ', '.join('{ ident := %d }' % num(s) for s in segs)

def attr_lean(inner, g):
    p, i = [], 0
    while i < len(g) and (g[i][0] == 'id' or is_p(g[i], '::')):
        if g[i][0] == 'id': p.append(g[i][1])
        i += 1
    rest = g[i:]
    if not rest: c = ''
    elif rest[0][0] in CL:
        c = ', content := .list [%s]' % (', '.join(toks(rest[0][1])) if p[0] in ('init', 'idle', 'task') else '')
    else: c = ', content := .nameValue'
    return '{ %spath := %s%s }' % ('inner := true, ' if inner else '', path_lean(p), c)

# ---- items

def ty_lean(ts):
    if len(ts) == 1 and is_p(ts[0], '!'): return '.never'
    if len(ts) == 1 and ts[0][0] == '(':
        es = [e for e in split_top(ts[0][1], ',') if e]
        return '.tuple [%s]' % ', '.join(ty_lean(e) for e in es)
    if ts and ts[0][0] == 'id' and ts[0][1] not in ('dyn', 'impl', 'fn'):
        segs, i = [], 0
        while i < len(ts):
            assert ts[i][0] == 'id', ts
            name = ts[i][1]; i += 1
            args = None
            if i < len(ts) and is_p(ts[i], '<'):
                d, j = 1, i + 1
                while d:
                    if is_p(ts[j], '<'): d += 1
                    if is_p(ts[j], '>'): d -= 1
                    j += 1
                args = split_top(ts[i + 1:j - 1], ',')
                i = j
            segs.append((name, args))
            if i < len(ts):
                assert is_p(ts[i], '::'), ts
                i += 1
        def seg(s):
            n, a = s
            if a is None: return '{ ident := %d }' % num(n)
            return '{ ident := %d, args := .angle [%s] }' % (num(n), ', '.join('.lifetime %d' % num(x[0][1][1:]) if len(x) == 1 and x[0][0] == 'life' else '.other' for x in a if x))
        return '.path false { segs := [%s] }' % ', '.join(seg(s) for s in segs)
    return '.other %d' % fresh()

def fn_lean(attrs, quals, ts, i):
    """at `fn`"""
    name = ts[i + 1][1]; i += 2
    generics = 0
    if is_p(ts[i], '<'):
        d, j = 1, i + 1
        while d:
            if is_p(ts[j], '<'): d += 1
            if is_p(ts[j], '>'): d -= 1
            j += 1
        generics = len([x for x in split_top(ts[i + 1:j - 1], ',') if x]); i = j
    assert ts[i][0] == '('
    inputs = []
    for a in [x for x in split_top(ts[i][1], ',') if x]:
        lr = split_top(a, ':')
        if len(lr) == 1: inputs.append('.receiver')
        else: inputs.append('.typed 0 (%s)' % ty_lean(a[len(lr[0]) + 1:]))
    i += 1
    out = ''
    if is_p(ts[i], '->'):
        j = i + 1
        while not (ts[j][0] == '{' or is_p(ts[j], ';') or ts[j] == ('id', 'where')): j += 1
        out = ', output := .type (%s)' % ty_lean(ts[i + 1:j]); i = j
    w = ts[i] == ('id', 'where')
    while not (ts[i][0] == '{' or is_p(ts[i], ';')): i += 1
    flags = ''.join(', %s := true' % f for q, f in (('pub', 'isPub'), ('const', 'isConst'), ('async', 'isAsync'), ('unsafe', 'isUnsafe')) if q in quals)
    if generics: flags += ', generics := %d' % generics
    if w: flags += ', whereClause := true'
    return '{ attrs := [%s], rest := { attrs := [], name := %d%s, inputs := [%s]%s } }' % (', '.join(attrs), num(name), flags, ', '.join(inputs), out), i + 1

def take_attrs(ts, i):
    attrs = []
    while i < len(ts) and is_p(ts[i], '#'):
        inner = is_p(ts[i + 1], '!')
        if inner: i += 1
        attrs.append(attr_lean(inner, ts[i + 1][1])); i += 2
    return attrs, i

def items(ts, foreign=False):
    out, i = [], 0
    while i < len(ts):
        attrs, i = take_attrs(ts, i)
        if i >= len(ts): break
        quals = []
        while ts[i][0] == 'id' and ts[i][1] in ('pub', 'const', 'async', 'unsafe'):
            if ts[i][1] == 'const' and ts[i + 1][1] != 'fn' and ts[i + 1][1] not in ('async', 'unsafe'): break
            quals.append(ts[i][1]); i += 1
            if quals[-1] == 'pub' and ts[i][0] == '(': i += 1
        k, v = ts[i]
        if v == 'fn':
            f, i = fn_lean(attrs, quals, ts, i)
            out.append('.fn ' + f)
        elif v == 'struct':
            name = ts[i + 1][1]; i += 2
            if ts[i][0] == '{':
                fs, g, j = [], ts[i][1], 0
                while j < len(g):
                    fa, j = take_attrs(g, j)
                    if j >= len(g): break
                    if g[j] == ('id', 'pub'): j += 1
                    n = g[j][1]; e = split_top(g[j:], ',')[0]
                    fs.append('{ attrs := [%s], rest := { name := %d, ty := %s } }' % (', '.join(fa), num(n), ty_lean(e[2:])))
                    j += len(e) + 1
                out.append('.struct [%s] %d (some [%s])' % (', '.join(attrs), num(name), ', '.join(fs))); i += 1
            else:
                while not is_p(ts[i], ';'): i += 1
                i += 1
                out.append('.struct [%s] %d none' % (', '.join(attrs), num(name)))
        elif v == 'extern' and ts[i + 1][0] in ('str', '{'):
            abi = 'none'
            i += 1
            if ts[i][0] == 'str': abi = '(some %d)' % num(ts[i][1].strip('"')); i += 1
            out.append('.foreign { name := %s } [%s]' % (abi, ', '.join(items(ts[i][1], True)))); i += 1
        else:
            while not (is_p(ts[i], ';') or (ts[i][0] == '{' and v not in ('use', 'const', 'static', 'type'))): i += 1
            i += 1
            out.append('.other')
    return out

def modules(ts):
    """the applications, also inside of other groups (`cfg_if!`)"""
    out = []
    for i in range(len(ts)):
        if ts[i][0] in CL: out += modules(ts[i][1])
        if is_p(ts[i], '#') and ts[i + 1][0] == '[' and ts[i + 1][1] and [v for k, v in ts[i + 1][1] if k == 'id'][-1] in ('app', 'mock_app') and ts[i + 1][1][-1][0] == '(':
            args = toks(ts[i + 1][1][-1][1])
            j = i + 2
            while ts[j][0] != '{': j += 1
            out.append((args, items(ts[j][1])))
    return out

def read(path): return modules(tree(lex(open(path).read()))[0])

MSG = [
    ("dispatcher interrupts can't be used as hardware tasks", 'dispatcherIsTask', 1),
    ('this interrupt is already bound', 'bound', 1), ('this identifier has already been used', 'identUsed', 1), ('this task is defined multiple times', 'taskTwice', 0),
    ('must have', 'badSignature', 0), ('this local resource has NOT been declared', 'undeclaredLocal', 1), ('this shared resource has NOT been declared', 'undeclaredShared', 1),
    ('is used by multiple tasks or collides', 'localShared', 1), ('Lock free shared resource', 'lockFreeStruct', 1), ('is declared lock free but', 'lockFreePrio', 1), ('has priority 0, but', 'prioZeroIdle', 1),
    ('argument appears more than once', 'badArgs', 0), ('unexpected argument', 'badArgs', 0), ('malformed', 'badArgs', 0), ('unexpected end of input', 'badArgs', 0),
    ('attributes are not supported here', 'badArgs', 0), ('this literal must be in the range', 'badArgs', 0), ('hardware tasks are not allowed to be at priority 0', 'badArgs', 0)]

UI = '''import Verif.Front.Props

/-!
# The rejected programs of `/repo/rtic-macros/ui` and `/repo/rtic/ui`

Generated by `tools/ui.py`. Each module is refused with the error messages of its `.stderr`, in that order; messages about the arguments of an attribute are not distinguished (`badArgs`), and repetitions are
left out (the compiler drops repeated messages at the same place; places are not modelled).
-/

namespace Verif.Front.Ui
open Verif.Front Verif.Grammar

'''

def main():
    root = os.path.join(os.path.dirname(os.path.abspath(__file__)), '..', 'lean', 'Verif', 'Front')
    out = UI
    n = 0
    for f in sorted(glob.glob('/repo/rtic-macros/ui/*.rs')):
        [(args, its)] = read(f)
        st = open(f[:-3] + '.stderr').read()
        msgs = re.findall(r'^error: (.*)$', st, re.M)
        es = []
        for k, first in enumerate(msgs):
            for pat, c, a in MSG:
                if pat in first: break
            else: raise Exception(first)
            if a:
                # the identifier the message names, or points at
                m = re.search(r'"(\w+)"', first)
                if m: who = m.group(1)
                else:
                    line = re.findall(r'^ *\d+ \|(.*)\n +\|( *)\^+', st, re.M)[k]
                    who = re.match(r'\w+', line[0][len(line[1]):]).group()
                es.append('.%s %d' % (c, num(who)))
            else: es.append('.' + c)
        es = list(dict.fromkeys(es))
        n += 1
        name = os.path.basename(f)
        out += '/-- `ui/%s`: %s -/\nexample : errors (mockApp uiSyn false uiCode [%s]\n  [%s]) = [%s] := by decide +kernel\n\n' % (name, '; '.join(dict.fromkeys(msgs)), ', '.join(args), ',\n   '.join(its), ', '.join(es))
    out += '/-! `/repo/rtic/ui`: the whole macro, for a microcontroller with 3 bits of priority. The other programs there are refused by the compiler when it sees the generated code, not by the macro. -/\n\n'
    for f in sorted(glob.glob('/repo/rtic/ui/*.rs')):
        name = os.path.basename(f)
        first = re.findall(r'^error.*$', open(f[:-3] + '.stderr').read(), re.M)[0]
        who = {'extern-interrupt-used.rs': '.dispatcherIsTask %d' % num('UART0'), 'exception-invalid.rs': '.badException %d' % num('nmi'), 'extern-interrupt-not-enough.rs': '.notEnough',
               'task-priority-too-high.rs': '.prioRange'}.get(name)
        for args, its in read(f):
            call = 'expandApp uiSyn uiCode uiTarget 3 [%s]\n  [%s]' % (', '.join(args), ',\n   '.join(its))
            out += '/-- `rtic/ui/%s`: %s -/\nexample : ' % (name, first)
            out += ('errors (%s) = [%s]' % (call, who) if who else 'accepts (%s) = true' % call) + ' := by decide +kernel\n\n'
            n += 1
    out += 'end Verif.Front.Ui\n'
    open(os.path.join(root, 'Ui.lean'), 'w').write(out)
    out = '''import Verif.Front.Props

/-!
# The accepted programs of `/repo/examples/lm3s6965`

Generated by `tools/ui.py`. Each module is accepted (the microcontroller has 3 bits of priority).
-/

namespace Verif.Front.Examples
open Verif.Front Verif.Grammar

'''
    m = 0
    for f in sorted(glob.glob('/repo/examples/lm3s6965/examples/*.rs')):
        rs = read(f)
        if not rs: print('no app:', f)
        for args, its in rs:
            m += 1
            out += '/-- `%s` -/\nexample : accepts (expandApp uiSyn uiCode uiTarget 3 [%s]\n  [%s]) = true := by decide +kernel\n\n' % (os.path.basename(f), ', '.join(args), ',\n   '.join(its))
    out += 'end Verif.Front.Examples\n'
    open(os.path.join(root, 'Examples.lean'), 'w').write(out)
    print(n, 'ui tests,', m, 'examples')

main()
