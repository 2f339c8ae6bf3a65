"""Translate src/flpr/Prgm_Parsers_impl.hh into Verif/Program/{Rules,Grammar}.lean.

usage: pgrammar.py REPO OUTDIR
"""
import re, sys
repo, out = sys.argv[1:3]
src = open(repo + '/src/flpr/Prgm_Parsers_impl.hh').read()
lines = src.split('\n')
rules = []  # name, first line, last line, text
i = 0
while i < len(lines):
    m = re.match(r'PPARSER\((\w+)\)', lines[i])
    if m and not lines[i].startswith('#'):
        j = i
        while not lines[j].startswith('}'):
            j += 1
        rules.append((m.group(1), i + 1, j + 1, '\n'.join(lines[i:j + 1])))
        i = j
    i += 1

ren = {'module': 'module_'}
def rn(n): return ren.get(n, n)
names = {r[0] for r in rules}

def strip(t):
    t = re.sub(r'/\*.*?\*/', '', t, flags=re.S)
    return re.sub(r'//[^\n]*', '', t)

def toks(t): return re.findall(r'\w+|[(),]', t)

class P:
    def __init__(s, ts, tag): s.t, s.i, s.tag = ts, 0, tag
    def pk(s): return s.t[s.i]
    def nx(s):
        s.i += 1
        return s.t[s.i - 1]
    def args(s):
        assert s.nx() == '('
        a = []
        if s.pk() == ')':
            s.nx(); return a
        while True:
            a.append(s.expr())
            c = s.nx()
            if c == ')': return a
            assert c == ',', c
    def expr(s):
        n = s.nx()
        if n == 'rule_tag': return 'Tag.' + s.tag
        if n == 'TAG':
            s.nx(); t = s.nx(); s.nx(); return 'Tag.' + t
        if n == 'STMT':
            s.nx(); t = s.nx(); s.nx(); return f'.stmt .{t}'
        if n in names and (s.i >= len(s.t) or s.pk() != '('): return f'.rule .{rn(n)}'
        a = s.args()
        w = lambda x: f'({x})'
        l = lambda xs: '[' + ', '.join(xs) + ']'
        if n == 'alts': return f'.alts {a[0]} {l(a[1:])}'
        if n == 'end_stream': return '.endStream'
        if n == 'opt': return f'.opt {w(a[0])}'
        if n == 'opt_seq': return f'.optSeq {a[0]} {l(a[1:])}'
        if n == 'h_opt_seq': return f'.optSeq Tag.HOIST {l(a)}'
        if n == 'plus': return f'.plus {a[0]} {w(a[1])}'
        if n == 'seq': return f'.seq {a[0]} {l(a[1:])}'
        if n == 'h_seq': return f'.seq Tag.HOIST {l(a)}'
        if n == 'seq_if': return f'.seqIf {a[0]} {w(a[1])} {l(a[2:])}'
        if n == 'h_seq_if': return f'.seqIf Tag.HOIST {w(a[0])} {l(a[1:])}'
        if n == 'star': return f'.star {w(a[0])}'
        if n == 'tag_if': return f'.tagIf {a[0]} {w(a[1])}'
        raise Exception(n)

def wrap(s, width=98):
    s = re.sub(r'\.(stmt|rule) \.', r'.\1~.', s.strip())
    out, cur = [], ' '
    for w in s.split(' '):
        if len(cur) + len(w) + 1 > width:
            out.append(cur); cur = '    ' + w
        else: cur = cur + ' ' + w
    out.append(cur)
    return '\n'.join(out).replace('~', ' ')

rl = '''/-!
# The program level parsers by name (src/flpr/Prgm_Parsers_impl.hh), generated by tools/pgrammar.py
-/

namespace FLPR
namespace PP

/-- The program level parsers. -/
inductive PR where
''' + ''.join(f'  | {rn(r[0])}\n' for r in rules) + '''  deriving DecidableEq, Repr

/-- All of them. -/
def PR.all : List PR :=
''' + wrap('  [' + ', '.join('.' + rn(r[0]) for r in rules) + ']') + '''

theorem PR.mem_all (r : PR) : r ∈ PR.all := by cases r <;> decide

end PP
end FLPR
'''
open(out + '/Rules.lean', 'w').write(rl)

g = '''import Verif.Program.Comb
/-!
# The program level parsers (src/flpr/Prgm_Parsers_impl.hh), generated by tools/pgrammar.py
-/

namespace FLPR
namespace PP
namespace Gr
'''
for n, a, b, t in rules:
    t0 = strip(t)
    if 'legacy_do_construct' in t0:
        body = '.legacyDo'
    else:
        tag = re.search(r'RULE\((\w+)\)', t0).group(1)
        e = re.search(r'auto p\s*=\s*(.*?);', t0, re.S).group(1)
        p = P(toks(e), tag); x = p.expr(); assert p.i == len(p.t), (n, p.t[p.i:])
        body = ('.exec (' if 'do_label_stack' in t0 else '.comb (') + x + ')'
    g += f'\n/-- Prgm_Parsers_impl.hh:{a}-{b} `{n}`. -/\ndef {rn(n)} : PBody :=\n' + wrap('  ' + body) + '\n'
g += '\nend Gr\n\n/-- What each parser does. -/\ndef PR.body : PR → PBody\n'
for r in rules: g += f'  | .{rn(r[0])} => Gr.{rn(r[0])}\n'
g += '\nend PP\nend FLPR\n'
open(out + '/Grammar.lean', 'w').write(g)
print(len(rules), 'rules')
