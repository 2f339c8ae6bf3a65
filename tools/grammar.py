#!/usr/bin/env python3
"""Translate the combinator expressions of src/flpr/parse_stmt.cc into Lean.

usage: grammar.py REPO OUTDIR
Writes OUTDIR/Rules.lean, OUTDIR/Grammar.lean (the grammar as data) and OUTDIR/Ranks.lean (tables that
the termination proof checks against the grammar).  The handful of rules that are
not a single combinator expression are listed in NATIVE and modelled by hand in Eval.lean.
"""
import re, sys

repo, out = sys.argv[1], sys.argv[2]
src = open(repo + '/src/flpr/parse_stmt.cc').read()

# strip comments, keeping line structure
def strip(s):
    s = re.sub(r'/\*.*?\*/', lambda m: re.sub(r'[^\n]', ' ', m.group(0)), s, flags=re.S)
    return re.sub(r'//[^\n]*', '', s)
code = strip(src)

NATIVE = {'consume_parens': '.parens', 'list_name': '.listName', 'expr': '.expr Tag.SG_EXPR realLiteral'}
LEANKW = {'prefix', 'variable'}
def rn(n):
    return '«%s»' % n if n in LEANKW else n

# --- function table ---
funs = []
for m in re.finditer(r'^Stmt_Tree (\w+)\(TT_Stream &ts\) \{', code, flags=re.M):
    name = m.group(1)
    depth, i = 1, m.end()
    while depth:
        c = code[i]
        depth += (c == '{') - (c == '}')
        i += 1
    l0 = code.count('\n', 0, m.start()) + 1
    l1 = code.count('\n', 0, i) + 1
    funs.append((name, code[m.end():i - 1], l0, l1))

# --- expression parser ---
def tokenize(s):
    return re.findall(r'"[^"]*"|\w+|[(),]', s)

def parse_args(ts, i):
    assert ts[i] == '(', ts[i:i+5]
    i += 1
    args = []
    if ts[i] == ')':
        return args, i + 1
    while True:
        e, i = parse(ts, i)
        args.append(e)
        if ts[i] == ',':
            i += 1
        elif ts[i] == ')':
            return args, i + 1
        else:
            raise Exception(ts[i:i+5])

def parse(ts, i):
    t = ts[i]
    if i + 1 < len(ts) and ts[i + 1] == '(':
        args, j = parse_args(ts, i + 1)
        return (t, args), j
    return (t, None), i + 1

def tagof(e, rule_tag):
    f, a = e
    if a is None:
        assert f == 'rule_tag', f
        return 'Tag.' + rule_tag
    assert f == 'TAG', f
    return 'Tag.' + a[0][0]

def lean(e, rt):
    f, a = e
    assert a is not None, e
    P = lambda xs: '[' + ', '.join(lean(x, rt) for x in xs) + ']'
    if f == 'alts': return '.alts %s %s' % (tagof(a[0], rt), P(a[1:]))
    if f == 'h_alts': return '.alts Tag.HOIST %s' % P(a)
    if f == 'seq': return '.seq %s %s' % (tagof(a[0], rt), P(a[1:]))
    if f == 'h_seq': return '.seq Tag.HOIST %s' % P(a)
    if f == 'parens': return '.parens %s %s' % (tagof(a[0], rt), P(a[1:]))
    if f == 'h_parens': return '.parens Tag.HOIST %s' % P(a)
    if f == 'brackets': return '.brackets %s %s' % (tagof(a[0], rt), P(a[1:]))
    if f == 'h_brackets': return '.brackets Tag.HOIST %s' % P(a)
    if f == 'list': return '.list %s (%s)' % (tagof(a[0], rt), lean(a[1], rt))
    if f == 'h_list': return '.list Tag.HOIST (%s)' % lean(a[0], rt)
    if f == 'tag_if': return '.tagIf %s (%s)' % (tagof(a[0], rt), lean(a[1], rt))
    if f == 'neg': return '.neg (%s)' % lean(a[0], rt)
    if f == 'opt': return '.opt (%s)' % lean(a[0], rt)
    if f == 'star': return '.star (%s)' % lean(a[0], rt)
    if f == 'peek': return '.peek %s' % tagof(a[0], rt)
    if f == 'eol': return '.peek Tag.BAD'
    if f == 'TOK': return '.tok Tag.%s' % a[0][0]
    if f == 'name': return '.name'
    if f == 'letter': return '.letter'
    if f == 'literal': return '.literal %s.toList' % a[0][0]
    if f == 'rule': return '.rule .%s' % rn(a[0][0])
    raise Exception('unknown ' + f)

def wrap(s, ind):
    """break a long line after commas"""
    res, cur = [], ' ' * ind
    for part in re.split(r'(?<=, )', s):
        if len(cur) + len(part) > 98 and cur.strip():
            res.append(cur.rstrip()); cur = ' ' * ind
        cur += part
    res.append(cur.rstrip())
    return '\n'.join(res)

bodies = []
exprs = {}
real = None
for name, body, l0, l1 in funs:
    if name in NATIVE:
        bodies.append((name, NATIVE[name], l0, l1)); continue
    b = body
    m = re.search(r'^#define RESULT (.*)$', b, flags=re.M)
    if m:
        mac = m.group(1).strip()
        b = re.sub(r'^#.*$', '', b, flags=re.M).replace('RESULT', mac)
        b = b.replace('SG_' + mac, 'SG_RESULT')
    rt = re.search(r'RULE\((\w+)\)', b)
    rt = rt.group(1) if rt else None
    pm = re.search(r'(?:constexpr )?auto p\s*=(.*?);', b, flags=re.S)
    ts = tokenize(pm.group(1))
    e, j = parse(ts, 0)
    assert j == len(ts), (name, ts[j:])
    # what follows the parser expression must be "return p(ts)" in some form
    rest = re.sub(r'\s+', ' ', b[pm.end():]).strip()
    p = lean(e, rt)
    if name == 'action_stmt' or name == 'other_specification_stmt':
        assert 'if(!res.match)' in rest
        w = 'true' if name == 'action_stmt' else 'false'
        txt = '.withExts %s (%s)' % (w, p)
    elif name == 'procedure_designator':
        txt = '.procDesignator (%s)' % p
    else:
        assert rest in ('return p(ts);',) or re.fullmatch(r'EVAL\(\w+, p\(ts\)\);', rest), (name, rest)
        pre = re.sub(r'RULE\(\w+\);?', '', b[:pm.start()]).strip()
        assert pre == '', (name, pre)
        txt = '.comb (%s)' % p
        if name == 'real_literal_constant':
            real, txt = p, '.comb realLiteral'
    bodies.append((name, txt, l0, l1))
    exprs[name] = e

disp = re.findall(r'case TAG\((\w+)\):\s*return (\w+)\(ts\);', code)
m = re.search(r'bool is_action_stmt.*?res = true', code, flags=re.S)
acts = re.findall(r'case TAG\((\w+)\)', m.group(0))

with open(out + '/Rules.lean', 'w') as f:
    f.write('''/-!
# The rules of the statement grammar (src/flpr/parse_stmt.cc)

One constructor per function `Stmt_Tree f(TT_Stream &)` of the file.  Written by `tools/grammar.py`.
-/

namespace FLPR
namespace SP

/-- The rule functions of parse_stmt.cc. -/
inductive R where
''')
    for n, *_ in bodies: f.write('  | %s\n' % rn(n))
    f.write('  deriving DecidableEq, Repr\n\n/-- All of them. -/\ndef R.all : List R :=\n')
    f.write('  [' + wrap(', '.join('.' + rn(n) for n, *_ in bodies), 3).strip() + ']\n')
    f.write('''
theorem R.mem_all (r : R) : r ∈ R.all := by cases r <;> decide

end SP
end FLPR
''')

with open(out + '/Grammar.lean', 'w') as f:
    f.write('''import Verif.StmtParser.Comb
import Verif.Tags.Defs
/-!
# The statement grammar (src/flpr/parse_stmt.cc:140-3816) as data

Each rule function of the file is `return p(ts)` for a combinator expression `p`; the expressions are
written out here one by one, with the lines they come from.  Written by `tools/grammar.py`.
-/

namespace FLPR
namespace SP
namespace G
''')
    f.write('\n/-- The parser of `real_literal_constant`, which `consume_until_break` calls as well. -/\n'
            'def realLiteral : P :=\n%s\n' % wrap(real, 2))
    for n, t, l0, l1 in bodies:
        f.write('\n/-- parse_stmt.cc:%d-%d `%s`. -/\ndef %s : Body :=\n%s\n' % (l0, l1, n, rn(n), wrap(t, 2)))
    f.write('\nend G\n\n/-- The body of each rule function. -/\ndef R.body : R → Body\n')
    for n, *_ in bodies: f.write('  | .%s => G.%s\n' % (rn(n), rn(n)))
    f.write('\n/-- parse_stmt.cc:3820-4214 `parse_stmt_dispatch`: the cases of the switch. -/\n')
    f.write('def dispatchTable : List (Int × R) :=\n  [' +
            wrap(', '.join('(Tag.%s, .%s)' % (t, rn(n)) for t, n in disp), 3).strip() + ']\n')
    f.write('\n/-- parse_stmt.cc:4224-4273 `is_action_stmt`: the cases that give `true`. -/\n')
    f.write('def actionTags : List Int :=\n  [' +
            wrap(', '.join('Tag.%s' % t for t in acts), 3).strip() + ']\n')
    f.write('\nend SP\nend FLPR\n')

# --- which rules take a token whenever they match, and how rules call each other before taking one ---
def norm(e):
    f, a = e
    a = a or []
    T = ('tok',)
    if f in ('alts', 'seq'): return (f, [norm(x) for x in a[1:]])
    if f in ('h_alts', 'h_seq'): return (f[2:], [norm(x) for x in a])
    if f in ('parens', 'brackets'): return ('seq', [T] + [norm(x) for x in a[1:]] + [T])
    if f in ('h_parens', 'h_brackets'): return ('seq', [T] + [norm(x) for x in a] + [T])
    if f in ('list', 'h_list'):
        p = norm(a[-1])
        return ('seq', [p, ('star', ('seq', [T, p]))])
    if f == 'tag_if': return ('tagIf', norm(a[1]))
    if f in ('neg', 'opt', 'star'): return (f, norm(a[0]))
    if f in ('peek', 'eol'): return ('peek',)
    if f == 'rule': return ('rule', a[0][0])
    return T

terms = {n: norm(e) for n, e in exprs.items()}
takes = {n: n not in ('action_stmt', 'other_specification_stmt', 'procedure_designator')
         for n, *_ in bodies}

def takes_ok(p):
    f = p[0]
    if f == 'tok': return True
    if f == 'seq': return any(map(takes_ok, p[1]))
    if f == 'alts': return all(map(takes_ok, p[1]))
    if f == 'tagIf': return takes_ok(p[1])
    if f == 'rule': return takes[p[1]]
    return False

def takes_tree(p):
    f = p[0]
    if f == 'peek': return True
    if f == 'star': return False
    if f in ('opt', 'neg', 'tagIf'): return takes_tree(p[1])
    return takes_ok(p)

changed = True
while changed:
    changed = False
    for n in terms:
        if takes[n] and not takes_tree(terms[n]):
            takes[n], changed = False, True

def left(p):
    f = p[0]
    if f == 'rule': return {p[1]}
    if f in ('opt', 'neg', 'star', 'tagIf'): return left(p[1])
    if f == 'alts': return set().union(*map(left, p[1]))
    r = set()
    if f == 'seq':
        for q in p[1]:
            r |= left(q)
            if takes_ok(q): break
    return r

ranks = {}
def rank(n, above=()):
    assert n not in above, 'left recursion'
    if n not in ranks:
        ranks[n] = max([1 + rank(m, above + (n,)) for m in left(terms[n])], default=0) if n in terms else 0
    return ranks[n]

with open(out + '/Ranks.lean', 'w') as f:
    f.write('''import Verif.StmtParser.Rules
/-!
# Tables for the termination proof

Nothing is taken on trust from these tables: `Term.lean` checks them against the grammar.  Written by
`tools/grammar.py`.
-/

namespace FLPR
namespace SP

/-- The rules that can match without taking a token. -/
def R.mayTakeNone : List R :=
''')
    f.write('  [' + wrap(', '.join('.' + rn(n) for n, *_ in bodies if not takes[n]), 3).strip() + ']\n')
    f.write('\n/-- A rule calls only rules of lower rank before it takes a token. -/\ndef R.rank : R → Nat\n')
    for n, *_ in bodies:
        if rank(n): f.write('  | .%s => %d\n' % (rn(n), rank(n)))
    f.write('  | _ => 0\n\nend SP\nend FLPR\n')
print(len(bodies), 'rules', len(disp), 'dispatch', len(acts), 'acts')
