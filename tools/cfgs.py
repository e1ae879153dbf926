#!/usr/bin/env python3
"""Translate the conditional-compilation structure of /repo/src/arch into Lean data.

Output: lean/Verif/Gen/Cfgs.lean
  * modules    : src/arch/mod.rs, `#[cfg(..)] mod m;`
  * macroDefs  : src/arch/cfgs/*.rs, every `#[cfg(..)] macro_rules! cfg_{has,no}_atomic_*` and whether it expands its body
  * impls      : src/arch/*.rs, every `impl Atomic{Load,Store,Swap,CompareExchange} for ty` reached by expanding the
                 `atomic*!` macros, with the conjunction of all cfg attributes on the way
"""
import re, os, sys
R = '/repo/src/arch/'
atoms = {}
def atom(key, val):
    pre = {'target_arch': 'arch', 'target_feature': 'tf', 'atomic_maybe_uninit_target_feature': 'amu',
           'target_os': 'os', 'target_pointer_width': 'ptr', 'target_env': 'env', 'target_endian': 'endian'}
    if val is None:
        n = 'flag_' + key
    else:
        n = pre[key] + '_' + val
    n = re.sub(r'[^A-Za-z0-9_]', '_', n)
    atoms.setdefault(n, (key, val))
    return n

def parse_cfg(s):
    """s: text of the predicate"""
    pos = 0
    def ws():
        nonlocal pos
        while pos < len(s) and s[pos] in ' \n\t,':
            pos += 1
    def pred():
        nonlocal pos
        ws()
        m = re.compile(r'[A-Za-z_0-9]+').match(s, pos)
        name = m.group(0); pos = m.end()
        t = re.compile(r'\s*\(').match(s, pos)
        if name in ('any', 'all', 'not') and t:
            pos = t.end(); args = []
            while True:
                ws()
                if s[pos] == ')':
                    pos += 1; break
                args.append(pred())
            if name == 'not':
                assert len(args) == 1
                return '(.not %s)' % args[0]
            return '(.%s [%s])' % (name, ', '.join(args))
        t = re.compile(r'\s*=\s*"([^"]*)"').match(s, pos)
        if t:
            pos = t.end()
            return '(.atom .%s)' % atom(name, t.group(1))
        return '(.atom .%s)' % atom(name, None)
    r = pred(); ws()
    assert pos == len(s), (s, pos)
    return r

def strip_comments(t):
    return re.sub(r'(?m)^\s*//.*$', '', t)

def match_close(t, i, o, c):
    """t[i] == o; index after the matching c, ignoring string literals"""
    d = 0
    while True:
        ch = t[i]
        if ch == '"':
            i += 1
            while t[i] != '"':
                if t[i] == '\\': i += 1
                i += 1
        elif ch == o: d += 1
        elif ch == c:
            d -= 1
            if d == 0: return i + 1
        i += 1

def items(t):
    """split an item list (module or macro arm body) into (cfgs, kind, payload)"""
    out = []; pos = 0; cfgs = []
    while True:
        m = re.compile(r'\s+').match(t, pos)
        if m: pos = m.end()
        if pos >= len(t): return out
        if t.startswith('#![', pos):
            pos = match_close(t, pos + 2, '[', ']'); continue
        if t.startswith('#[', pos):
            e = match_close(t, pos + 1, '[', ']')
            a = t[pos + 2:e - 1].strip()
            if a.startswith('cfg('):
                cfgs.append(parse_cfg(a[4:-1]))
            else:
                p = re.match(r'path\s*=\s*"(.*)"', a)
                if p: out.append((list(cfgs), 'path', p.group(1)))
            pos = e; continue
        m = re.compile(r'macro_rules!\s*([a-z0-9_]+)\s*\{').match(t, pos)
        if m:
            e = match_close(t, m.end() - 1, '{', '}')
            out.append((cfgs, 'macro', (m.group(1), t[m.end():e - 1]))); cfgs = []; pos = e; continue
        m = re.compile(r'impl (Atomic[A-Za-z]+) for (\$?[a-z0-9_]+) \{').match(t, pos)
        if m:
            e = match_close(t, m.end() - 1, '{', '}')
            out.append((cfgs, 'impl', (m.group(1), m.group(2)))); cfgs = []; pos = e; continue
        m = re.compile(r'([a-z0-9_]+)!\s*\(').match(t, pos)
        if m:
            e = match_close(t, m.end() - 1, '(', ')')
            args = [x.strip() for x in t[m.end():e - 1].split(',')]
            args = [x for x in args if x]
            out.append((cfgs, 'call', (m.group(1), args))); cfgs = []
            pos = e
            m = re.compile(r'\s*;').match(t, pos)
            if m: pos = m.end()
            continue
        m = re.compile(r'(pub(\([a-z]+\))?\s+)?mod\s+([a-z0-9_]+)\s*;').match(t, pos)
        if m:
            out.append((cfgs, 'mod', m.group(3))); cfgs = []; pos = m.end(); continue
        # any other item: up to ';' or a balanced '{..}' at depth 0
        i = pos
        while True:
            if t[i] in '([':
                i = match_close(t, i, t[i], ')' if t[i] == '(' else ']')
            elif t[i] == '{':
                i = match_close(t, i, '{', '}')
                m = re.compile(r'\s*;').match(t, i)
                if m: i = m.end()
                break
            elif t[i] == ';': i += 1; break
            else: i += 1
        cfgs = []; pos = i

def arms(body):
    out = []; pos = 0
    while True:
        m = re.compile(r'[\s;]+').match(body, pos)
        if m: pos = m.end()
        if pos >= len(body): return out
        assert body[pos] == '(', body[pos:pos+40]
        e = match_close(body, pos, '(', ')')
        pat = body[pos + 1:e - 1]
        m = re.compile(r'\s*=>\s*\{').match(body, e)
        e2 = match_close(body, m.end() - 1, '{', '}')
        out.append((pat, body[m.end():e2 - 1])); pos = e2

def read(f):
    return strip_comments(open(f).read())

def conj(cs):
    return cs[0] if len(cs) == 1 else '(.all [%s])' % ', '.join(cs)

mods = []
for cfgs, k, p in items(read(R + 'mod.rs')):
    if k == 'mod': mods.append((p, conj(cfgs)))

def cfg_macros(f):
    out = []
    for cfgs, k, p in items(read(R + 'cfgs/' + f + '.rs')):
        if k != 'macro': continue
        name, body = p
        m = re.match(r'cfg_(has|no)_atomic_(8|16|32|64|128|cas|ptr)$', name)
        assert m, name
        a = arms(body)
        assert len(a) == 1
        pat, b = a[0]
        assert pat.strip() == '$($tt:tt)*', pat
        b = b.strip()
        assert b in ('', '$($tt)*'), b
        out.append((m.group(1), m.group(2), conj(cfgs), b != ''))
    return out

def impls(f, R=R, cfgpath="cfgs/"):
    its = items(read(R + f + '.rs'))
    macros = {}
    path = None
    calls = []
    for cfgs, k, p in its:
        if k == 'path': path = p
        if k == 'macro': macros.setdefault(p[0], []).append((cfgs, p[1]))
        if k == 'impl': raise Exception('impl outside macro')
        if k == 'call' and p[0].startswith('atomic'): calls.append((cfgs, p))
    out = []
    def expand(cfgs, name, args, ty):
        for mc, body in macros[name]:
            cand = arms(body)
            ar = [(pat, b) for pat, b in cand if len([x for x in pat.split(',') if ':' in x or x.strip()]) == len(args)] \
                if len(cand) > 1 else cand
            assert len(ar) >= 1, (f, name, args)
            pat, b = ar[0]
            for c2, k, p in items(b):
                cs = cfgs + mc + c2
                if k == 'impl':
                    assert p[1] == '$ty'
                    out.append((p[0], ty, conj(cs)))
                elif k == 'call' and p[0] in macros:
                    assert p[1][0] == '$ty', (f, p)
                    expand(cs, p[0], p[1], ty)
    for cfgs, (name, args) in calls:
        expand(cfgs, name, args, args[0])
    m = re.search(r'#\[path = "' + re.escape(cfgpath) + r'([a-z0-9_]+)\.rs"\]\s*mod cfgs;', open(R + f + '.rs').read())
    assert m and m.group(1) == f, (f, m and m.group(1))
    return out

L = []
names = [m for m, _ in mods]
data = {}
for m in names:
    data[m] = (cfg_macros(m), impls(m) if m != 'unsupported' else [])
# src/arch_legacy: the same cfgs/*.rs, its own mod.rs and implementations
RL = '/repo/src/arch_legacy/'
lmods = []
for cfgs, k, p in items(read(RL + 'mod.rs')):
    if k == 'mod': lmods.append((p, conj(cfgs)))
ldata = {m: impls(m, RL, "../arch/cfgs/") if m != 'unsupported' else [] for m, _ in lmods}
assert all(m in names for m, _ in lmods)
assert re.search(r'#\[path = "../arch/cfgs/unsupported.rs"\]\s*mod unsupported;', open(RL + 'mod.rs').read())
# src/gen/utils.rs: the two definitions of ptr_reg!
def ptr_regs():
    t = read('/repo/src/gen/utils.rs')
    t = re.sub(r'#!\[[^\]]*\]', '', t)
    out = []; pos = 0
    while True:
        m = re.compile(r'#\[cfg\(').search(t, pos)
        if not m: break
        e = match_close(t, m.start() + 1, '[', ']')
        c = parse_cfg(t[m.end():e - 2].strip())
        m = re.compile(r'\s*#\[macro_use\]\s*mod imp \{').match(t, e)
        e2 = match_close(t, m.end() - 1, '{', '}')
        b = t[m.end():e2 - 1]
        m = re.match(r'\s*#\[cfg\(', b)
        e = match_close(b, m.end() - 1, '(', ')')
        mc = parse_cfg(b[m.end():e - 1].strip())
        assert re.match(r'\]\s*macro_rules! ptr_reg \{', b[e:])
        zx = 'crate::utils::zero_extend64_ptr($ptr as *mut ())' in b and '$ptr as u64' in b
        assert zx or re.search(r'let _: \*const _ = \$ptr;[^\n]*\n\s*\$ptr[^\n]*\n\s*\}\};', b)
        rs = re.search(r'type RegSize = (\w+);', b).group(1)
        out.append((c, mc, zx, rs)); pos = e2
    return out
ptrregs = ptr_regs()
def ptr_operands(path):
    """every asm! input whose value is a pointer: (line, function, goes through ptr_reg!?)"""
    out = []; names = set(); fn = None
    for ln, l in enumerate(open(path), 1):
        l = re.sub(r'//.*', '', l)
        m = re.search(r'\bfn (\w+)', l)
        if m: fn = m.group(1); names = set()
        for m in re.finditer(r'(\w+): \*(?:const|mut) ', l):
            if fn: names.add(m.group(1))
        m = re.match(r'\s*let (?:mut )?(\w+)(?:: [^=]*)? = .*(?:as_ptr\(\)|as_mut_ptr\(\)|\.cast::<\w+>\(\));', l)
        if m: names.add(m.group(1))
        m = re.match(r'\s*let \((\w+), \w+, \w+\)(?:: [^=]*)? = .*create_sub_word_mask_values', l)
        if m: names.add(m.group(1))
        m = re.search(r'\b(?:in|inout|inlateout)\((?:"\w+"|\w+)\)\s+(.*?)(?:\s*=>.*)?,\s*$', l)
        if m:
            x = m.group(1)
            y = re.match(r'ptr_reg!\((\w+)\)$', x)
            if y:
                assert y.group(1) in names, (path, ln, l)
                out.append((ln, fn, True))
            elif x in names or re.search(r'as_(mut_)?ptr\(\)', x): out.append((ln, fn, False))
    return out
L.append('''/-
Generated by tools/cfgs.py from /repo/src/arch/mod.rs, /repo/src/arch/cfgs/*.rs, /repo/src/arch/*.rs and /repo/src/arch_legacy/*.rs.
Do not edit: the conditional-compilation structure of the crate as data.
-/
import Verif.Core.Cfg

namespace Verif.Gen
''')
for k in names:
    cm, im = data[k]
    for _, _, c, _ in cm: pass
order = sorted(atoms)
L.append('/-- The cfg options that occur: `arch_*` target_arch, `tf_*` target_feature, `amu_*`\n'
         'atomic_maybe_uninit_target_feature, `os_*` target_os, `ptr_*` target_pointer_width, `flag_*` bare options. -/\n'
         'inductive Atom where')
for n in order: L.append('  | %s' % n)
L.append('deriving DecidableEq, Repr\n')
L.append('abbrev P := Cfg.Pred Atom\n')
L.append('/-- The back-end modules of src/arch/mod.rs. -/\ninductive Module where')
for n in names: L.append('  | %s' % n)
L.append('deriving DecidableEq, Repr\n')
L.append('/-- src/arch/mod.rs l.12-134: the cfg attributes of each `mod`. -/\ndef moduleCfg : Module → P')
for n, c in mods: L.append('  | .%s => %s' % (n, c))
L.append('')
T = {'AtomicLoad': 'load', 'AtomicStore': 'store', 'AtomicSwap': 'swap', 'AtomicCompareExchange': 'cas'}
for n in names:
    cm, im = data[n]
    L.append('/-- src/arch/cfgs/%s.rs: (has?, what, cfg, expands its body?) of every macro. -/' % n)
    L.append('def macros_%s : List (Cfg.MacroDef Atom) := [' % n)
    L.append(',\n'.join('  ⟨%s, .%s, %s, %s⟩' % ('true' if h == 'has' else 'false', 'cas' if w == 'cas' else ('ptr' if w == 'ptr' else 'bits%s' % w), c,
             'true' if x else 'false') for h, w, c, x in cm) + ']\n')
    L.append('/-- src/arch/%s.rs: every trait implementation with its cfg. -/' % n)
    L.append('def impls_%s : List (Cfg.Impl Atom) := [' % n)
    L.append(',\n'.join('  ⟨.%s, .%s, %s⟩' % (T[t], ty, c) for t, ty, c in im) + ']\n')
L.append('/-- The macro definitions of a module. -/\ndef macrosOf : Module → List (Cfg.MacroDef Atom)')
for n in names: L.append('  | .%s => macros_%s' % (n, n))
L.append('\n/-- The trait implementations of a module. -/\ndef implsOf : Module → List (Cfg.Impl Atom)')
for n in names: L.append('  | .%s => impls_%s' % (n, n))
L.append('\n/-- src/arch_legacy/mod.rs l.7-59: the cfg attributes of each `mod` (used instead of src/arch on old compilers,\nsrc/lib.rs l.104). Modules that do not exist there: never. -/\ndef legacyModuleCfg : Module → P')
for n, c in lmods: L.append('  | .%s => %s' % (n, c))
L.append('  | _ => (.any [])')
for n, _ in lmods:
    L.append('\n/-- src/arch_legacy/%s.rs: every trait implementation with its cfg. -/' % n)
    L.append('def legacyImpls_%s : List (Cfg.Impl Atom) := [' % n)
    L.append(',\n'.join('  ⟨.%s, .%s, %s⟩' % (T[t], ty, c) for t, ty, c in ldata[n]) + ']')
L.append('\n/-- The trait implementations of a module of src/arch_legacy. -/\ndef legacyImplsOf : Module → List (Cfg.Impl Atom)')
for n, _ in lmods: L.append('  | .%s => legacyImpls_%s' % (n, n))
L.append('  | _ => []')
L.append('\n/-- src/gen/utils.rs l.30-98: the definitions of `ptr_reg!`: cfg of the module, cfg of the macro in it, does it\nzero-extend the pointer to 64 bits (else: the pointer itself), width of `RegSize` in bits (none = pointer width). -/\ndef ptrRegs : List (P × P × Bool × Option Nat) := [')
L.append(',\n'.join('  (%s, %s, %s, %s)' % (c, mc, 'true' if z else 'false', {'u64': 'some 64', 'usize': 'none'}[r]) for c, mc, z, r in ptrregs) + ']')
for nm, root, ms in (('ptrOperands', R, names), ('legacyPtrOperands', RL, [m for m, _ in lmods])):
    L.append('\n/-- %s*.rs: every pointer-valued input of an `asm!` block: line, through `ptr_reg!`? -/' % root[len('/repo/'):])
    L.append('def %s : Module → List (Nat × Bool)' % nm)
    for n in ms:
        if n == 'unsupported': continue
        ops = ptr_operands(root + n + '.rs')
        assert ops
        L.append('  | .%s => [%s]' % (n, ', '.join('(%d, %s)' % (ln, 'true' if b else 'false') for ln, _, b in ops)))
    L.append('  | _ => []')
L.append('\nend Verif.Gen')
out = '\n'.join(L) + '\n'
out = out.replace('(.all [])', '.tt')
open('/verif/lean/Verif/Gen/Cfgs.lean', 'w').write(out)
print(len(order), 'atoms;', {n: (len(data[n][0]), len(data[n][1])) for n in names})
