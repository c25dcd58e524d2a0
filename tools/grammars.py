"""Writes the grammars of the shipped languages as Lean data, and certificates for the static checks.

Reads the generated parsers in /repo as text. Run from anywhere: python3 /verif/tools/grammars.py
"""
import json
import os
import re
import sys

sys.setrecursionlimit(100000)
REPO = '/repo'
OUT = os.path.join(os.path.dirname(os.path.abspath(__file__)), '..', 'lean', 'Verif')
FILES = {
    'sexp': 'fall/test/src/sexp.rs',
    'arith': 'fall/test/src/arith.rs',
    'weird': 'fall/test/src/weird.rs',
    'bnf': 'lang/bnf/src/bnf.rs',
    'json': 'lang/json/src/json.rs',
    'fall': 'lang/fall/syntax/src/fall.rs',
    'rust': 'lang/rust/syntax/src/rust.rs',
}


def line_of(text, pos):
    return text.count('\n', 0, pos) + 1


def load(name):
    path = FILES[name]
    text = open(os.path.join(REPO, path)).read()
    consts = {m.group(1): int(m.group(2)) for m in
              re.finditer(r'pub const (\w+): rt::NodeType = rt::NodeType\((\d+)\);', text)}
    first = text.index('pub const ')
    last = max(m.end() for m in re.finditer(r'pub const \w+: rt::NodeType = rt::NodeType\(\d+\);', text))
    m = re.search(r'parser_json = r##"(.*?)"##', text, re.S)
    rules = json.loads(m.group(1))
    n = re.search(r'node_types: vec!\[\s*rt::ERROR,\s*(.*?)\]', text, re.S)
    types = [0] + [consts[x.strip()] for x in n.group(1).split(',') if x.strip()]
    infos = list(re.finditer(r'(\w+) => rt::NodeTypeInfo \{ name: "\w+", whitespace_like: (true|false) \}', text))
    ws = [0 if i.group(1) == 'ERROR' else consts[i.group(1)] for i in infos if i.group(2) == 'true']
    return dict(path=path, rules=rules, types=types, ws=ws,
                lines_rules=line_of(text, m.start()),
                lines_types=(line_of(text, first), line_of(text, last)),
                lines_vec=(line_of(text, n.start()), line_of(text, n.end())),
                lines_ws=(line_of(text, infos[0].start()), line_of(text, infos[-1].end())))


def kv(e):
    if isinstance(e, str):
        return e, None
    (k, v), = e.items()
    return k, v


def nats(l):
    return '[' + ', '.join(map(str, l)) + ']'


def b(x):
    return 'true' if x else 'false'


def lean(e):
    k, v = kv(e)
    if k == 'Pub':
        return f".pub {v['ty']} {v['body']} {b(v['replaceable'])}"
    if k == 'PubReplace':
        return f".pubReplace {v['ty']} {v['body']}"
    if k == 'Or':
        return f".or {nats(v)}"
    if k == 'And':
        return f".and {nats(v[0])} " + ('none' if v[1] is None else f'(some {v[1]})')
    if k == 'Token':
        return f'.token {v}'
    if k == 'ContextualToken':
        return f'.contextualToken {v[0]} {nats(v[1].encode())}'
    simple = {'Rep': 'rep', 'Opt': 'opt', 'Not': 'not', 'IsIn': 'isIn', 'Var': 'var', 'Cached': 'cached'}
    if k in simple:
        return f'.{simple[k]} {v}'
    double = {'WithSkip': 'withSkip', 'Layer': 'layer', 'Enter': 'enter', 'Exit': 'exit', 'Inject': 'inject'}
    if k in double:
        return f'.{double[k]} {v[0]} {v[1]}'
    if k == 'Eof':
        return '.eof'
    if k == 'Any':
        return '.any'
    if k == 'Pratt':
        pre = ', '.join(f"⟨{p['ty']}, {p['op']}, {p['priority']}⟩" for p in v['prefixes'])
        inf = ', '.join(f"⟨{p['ty']}, {p['op']}, {p['priority']}, {b(p['has_rhs'])}⟩" for p in v['infixes'])
        return f".pratt ⟨{nats(v['atoms'])}, [{pre}], [{inf}]⟩"
    if k == 'Call':
        return f'.call {v[0]} [' + ', '.join(f'({i}, {a})' for i, a in v[1]) + ']'
    if k == 'PrevIs':
        return f'.prevIs {nats(v)}'
    raise Exception(k)


def wrap(items, indent='  '):
    out, line = [], indent
    for i, x in enumerate(items):
        piece = x + (', ' if i + 1 < len(items) else '')
        if len(line) + len(piece) > 110 and line.strip():
            out.append(line.rstrip())
            line = indent
        line += piece
    out.append(line.rstrip())
    return '\n'.join(out)


CHUNK = 100


def lean_grammar(name):
    g = load(name)
    cite = f"`{g['path']}`"
    rules = [lean(e) for e in g['rules']]
    s = ''
    parts = []
    if len(rules) <= CHUNK:
        s += f"/-- {cite} {g['lines_rules']}: the rules, read from the text of the generated parser. -/\n"
        s += f"def {name}Rules : List Expr := [\n{wrap(rules)}]\n\n"
    else:
        for k in range(0, len(rules), CHUNK):
            part = f'{name}Rules{k // CHUNK}'
            parts.append(part)
            s += f"/-- {cite} {g['lines_rules']}: rules {k} to {min(k + CHUNK, len(rules)) - 1}. -/\n"
            s += f"def {part} : List Expr := [\n{wrap(rules[k:k + CHUNK])}]\n\n"
        s += f"/-- {cite} {g['lines_rules']}: the rules, read from the text of the generated parser. -/\n"
        s += f"def {name}Rules : List Expr :=\n{wrap([p + ' ++' for p in parts[:-1]] + [parts[-1]]).replace(' ++, ', ' ++ ').replace(' ++,', ' ++')}\n\n"
    s += (f"/-- {cite} {g['lines_vec'][0]}-{g['lines_vec'][1]}: the node types, with the numbers of lines "
          f"{g['lines_types'][0]}-{g['lines_types'][1]}. -/\n")
    s += f"def {name}Types : List NodeType := [\n{wrap([str(t) for t in g['types']])}]\n\n"
    s += f"/-- {cite} {g['lines_ws'][0]}-{g['lines_ws'][1]}: the types that are like whitespace. -/\n"
    s += f"def {name}IsWs (ty : NodeType) : Bool := {nats(g['ws'])}.contains ty\n\n"
    s += f"/-- {cite} {g['lines_rules']}, with the start rule of `fall/parse/src/lib.rs` 247-251. -/\n"
    s += f"def {name}Grammar : Grammar := ⟨{name}Types, {name}Rules, 0⟩\n\n"
    return s


HEAD = '''import Verif.Model.Syn

/-!
%s
Written by `tools/grammars.py`.
-/

namespace Fall

'''


# Analyses.

def passed(g):
    P, changed = {}, True
    while changed:
        changed = False
        for e in g:
            k, v = kv(e)
            if k == 'Call':
                for i, a in v[1]:
                    ka, va = kv(g[a])
                    new = P.get(va, set()) if ka == 'Var' else {a}
                    S = P.setdefault(i, set())
                    if not new <= S:
                        S |= new
                        changed = True
    return P


def nullable(g, P):
    N = [False] * len(g)

    def f(e):
        k, v = kv(e)
        if k in ('Pub', 'PubReplace'):
            return N[v['body']]
        if k == 'Or':
            return any(N[p] for p in v)
        if k == 'And':
            ps, c = v
            return all(N[p] for p in (ps if c is None else ps[:c]))
        if k == 'ContextualToken':
            return v[1] == ''
        if k in ('Eof', 'Opt', 'Not', 'Rep', 'IsIn', 'PrevIs'):
            return True
        if k in ('Token', 'Any'):
            return False
        if k == 'Layer':
            return N[v[0]]
        if k == 'WithSkip':
            return N[v[1]]
        if k == 'Pratt':
            return any(N[p] for p in v['atoms'])
        if k in ('Enter', 'Exit'):
            return N[v[1]]
        if k == 'Call':
            return N[v[0]]
        if k == 'Var':
            return any(N[a] for a in P.get(v, ()))
        if k == 'Inject':
            return N[v[0]] and N[v[1]]
        if k == 'Cached':
            return N[v]
        raise Exception(k)
    changed = True
    while changed:
        changed = False
        for i, e in enumerate(g):
            if not N[i] and f(e):
                N[i] = True
                changed = True
    return N


def left(g, P, N, i, known):
    k, v = kv(g[i])
    if k == 'Call':
        d = dict(known)
        for j, a in v[1]:
            ka, va = kv(g[a])
            value = d.get(va) if ka == 'Var' else a
            if value is None:
                d.pop(j, None)
            else:
                d[j] = value
        return [(v[0], tuple(sorted(d.items())))]
    if k == 'Var':
        d = dict(known)
        return [(a, known) for a in ([d[v]] if v in d else sorted(P.get(v, ())))]
    if k in ('Pub', 'PubReplace'):
        r = [v['body']]
    elif k == 'Or':
        r = list(v)
    elif k == 'And':
        r = []
        for p in v[0]:
            r.append(p)
            if not N[p]:
                break
    elif k in ('Opt', 'Not', 'Rep', 'Cached'):
        r = [v]
    elif k in ('Layer', 'WithSkip'):
        r = [v[0], v[1]]
    elif k == 'Pratt':
        r = v['atoms'] + [p['op'] for p in v['prefixes']] + ([p['op'] for p in v['infixes']] if N[i] else [])
    elif k in ('Enter', 'Exit'):
        r = [v[1]]
    elif k == 'Inject':
        r = [v[0]] + ([v[1]] if N[v[0]] else [])
    else:
        r = []
    return [(j, known) for j in r]


def certificate(g):
    P = passed(g)
    N = nullable(g, P)
    R, busy = {}, set()

    def go(x):
        if x in R:
            return R[x]
        assert x not in busy, ('left recursion', x)
        busy.add(x)
        R[x] = max([go(y) + 1 for y in left(g, P, N, *x)], default=0)
        return R[x]
    for i in range(len(g)):
        go((i, ()))
    groups = {}
    for (e, known), r in R.items():
        groups.setdefault(known, {})[e] = r
    tables = [(known, sum((r + 1) << (6 * e) for e, r in t.items())) for known, t in groups.items()]
    longest = max(R.values())
    assert longest + 1 < 64
    return P, sum(1 << i for i, x in enumerate(N) if x), tables, longest


def fixpoint(g, f):
    X, changed = [False] * len(g), True
    while changed:
        changed = False
        for i, e in enumerate(g):
            if not X[i] and f(X, *kv(e)):
                X[i] = True
                changed = True
    return X


def loose(g, P, N):
    def f(L, k, v):
        if k in ('Token', 'ContextualToken', 'Any', 'Cached'):
            return True
        if k == 'PubReplace':
            return L[v['body']]
        if k == 'Or':
            return any(L[p] for p in v)
        if k == 'And':
            for p in v[0]:
                if L[p]:
                    return True
                if not N[p]:
                    return False
            return False
        if k in ('Opt', 'Rep'):
            return L[v]
        if k in ('Layer', 'WithSkip', 'Enter', 'Exit'):
            return L[v[1]]
        if k == 'Pratt':
            return any(L[a] for a in v['atoms'])
        if k == 'Call':
            return L[v[0]]
        if k == 'Var':
            return any(L[a] for a in P.get(v, ()))
        if k == 'Inject':
            return L[v[0]] or N[v[0]] and L[v[1]]
        return False
    return fixpoint(g, f)


def may_fail(g, P):
    def f(F, k, v):
        if k in ('Token', 'ContextualToken', 'Any', 'Eof', 'Not', 'IsIn', 'PrevIs', 'WithSkip', 'Pratt'):
            return True
        if k in ('Opt', 'Rep'):
            return False
        if k in ('Pub', 'PubReplace'):
            return F[v['body']]
        if k == 'Or':
            return all(F[p] for p in v)
        if k == 'And':
            ps, c = v
            return any(F[p] for p in (ps if c is None else ps[:c])) or c is not None and len(ps) < c
        if k in ('Layer', 'Call'):
            return F[v[0]]
        if k in ('Enter', 'Exit'):
            return F[v[1]]
        if k == 'Var':
            return any(F[a] for a in P.get(v, ()))
        if k == 'Inject':
            return F[v[0]] or F[v[1]]
        if k == 'Cached':
            return F[v]
        raise Exception(k)
    return fixpoint(g, f)


def tries(e):
    k, v = kv(e)
    if k in ('Pub', 'PubReplace'):
        return [(v['body'], False)]
    if k == 'Or':
        return [(p, False) for p in v]
    if k == 'And':
        return [(p, False) for p in v[0]]
    if k in ('Opt', 'Rep', 'Cached'):
        return [(v, False)]
    if k == 'Not':
        return [(v, True)]
    if k in ('Layer', 'WithSkip'):
        return [(v[0], True), (v[1], False)]
    if k == 'Pratt':
        return [(p, False) for p in v['atoms'] + [o['op'] for o in v['prefixes'] + v['infixes']]]
    if k in ('Enter', 'Exit'):
        return [(v[1], False)]
    if k == 'Inject':
        return [(v[0], False), (v[1], False)]
    return []


def needs(g):
    """The parameters that running an expression may use."""
    S, changed = [set() for _ in g], True
    while changed:
        changed = False
        for i, e in enumerate(g):
            k, v = kv(e)
            if k == 'Var':
                new = {v}
            elif k == 'Call':
                new = S[v[0]] - {j for j, _ in v[1]}
                for _, a in v[1]:
                    new |= S[a]
            else:
                new = set()
                for p, _ in tries(e):
                    new |= S[p]
            if not new <= S[i]:
                S[i] |= new
                changed = True
    return S


def reached(g):
    """The expressions that may be run, with the values of the parameters they may use, and whether in lookahead."""
    S = needs(g)

    def prune(e, d):
        need, todo = set(), set(S[e])
        while todo:
            i = todo.pop()
            if i not in need:
                need.add(i)
                if i in d:
                    todo |= S[d[i]]
        return tuple(sorted((i, a) for i, a in d.items() if i in need))

    seen, todo = {(0, (), False)}, [(0, (), False)]
    while todo:
        e, known, la = todo.pop()
        k, v = kv(g[e])
        d = dict(known)
        if k == 'Call':
            for j, a in v[1]:
                ka, va = kv(g[a])
                d[j] = d[va] if ka == 'Var' else a
            new = [(v[0], False)]
        elif k == 'Var':
            new = [(d[v], False)]
        else:
            new = tries(g[e])
        for p, la2 in new:
            y = (p, prune(p, d), la or la2)
            if y not in seen:
                seen.add(y)
                todo.append(y)
    groups = {}
    for e, known, la in seen:
        groups.setdefault(known, [0, 0])[la] |= 1 << e
    return sorted((known, m, mla) for known, (m, mla) in groups.items())


def bits(X):
    return sum(1 << i for i, x in enumerate(X) if x)


def known_lean(known):
    return '[' + ', '.join(f'({i}, {a})' for i, a in known) + ']'


def lean_safe(name):
    g = load(name)['rules']
    P = passed(g)
    N = nullable(g, P)
    L, F = loose(g, P, N), may_fail(g, P)
    if F[0]:
        return ''
    s = f"/-- Further analyses of the grammar of `{FILES[name]}`. -/\n"
    s += f"def {name}SafeCert : SafeCert where\n  loose := 0x{bits(L):x}\n  fails := 0x{bits(F):x}\n  reach := [\n"
    s += ',\n'.join(f'    ({known_lean(known)}, 0x{m:x}, 0x{mla:x})' for known, m, mla in reached(g))
    s += ']\n\n'
    s += f"theorem {name}_safe : Safe {name}Grammar ∧ Linked {name}Grammar :=\n"
    s += f"  safe_sound (s := {name}SafeCert) {name}_cert (by decide +kernel)\n\n"
    return s


def lean_cert(name):
    g = load(name)['rules']
    P, null, tables, longest = certificate(g)
    rows = [nats(sorted(P.get(i, ()))) for i in range(max(P, default=-1) + 1)]
    s = f"/-- Analyses of the grammar of `{FILES[name]}`. -/\n"
    s += f"def {name}Cert : Cert where\n  passed := [\n{wrap(rows, '    ')}]\n  null := 0x{null:x}\n  groups := [\n"
    s += ',\n'.join('    ([' + ', '.join(f'({i}, {a})' for i, a in known) + f'], 0x{t:x})' for known, t in tables)
    s += ']\n\n'
    s += f"theorem {name}_cert : {name}Cert.ok {name}Grammar {longest} = true := by decide +kernel\n\n"
    s += f"theorem {name}_terminating : Terminating {name}Grammar {longest} := ok_sound {name}_cert\n\n"
    return s + lean_safe(name)


def main():
    small = ['sexp', 'arith', 'weird', 'bnf', 'json', 'fall']
    with open(os.path.join(OUT, 'Model', 'Grammars.lean'), 'w') as f:
        f.write(HEAD % 'The grammars of the small shipped languages.')
        for name in small:
            f.write(lean_grammar(name))
        f.write('end Fall\n')
    with open(os.path.join(OUT, 'Model', 'RustGrammar.lean'), 'w') as f:
        f.write(HEAD % 'The grammar of the shipped Rust parser.')
        f.write(lean_grammar('rust'))
        f.write('end Fall\n')
    with open(os.path.join(OUT, 'Lemmas', 'Certs.lean'), 'w') as f:
        f.write('''import Verif.Model.Grammars
import Verif.Model.RustGrammar
import Verif.Lemmas.SafeCheck

/-!
The shipped grammars terminate, and some are safe. Written by `tools/grammars.py`; the certificates are checked by
evaluating `Cert.ok` and `SafeCert.ok`, which are sound by `ok_sound` and `safe_sound`.
-/

namespace Fall.Check

open Spec

''')
        for name in small + ['rust']:
            f.write(lean_cert(name))
        f.write('end Fall.Check\n')


main()
