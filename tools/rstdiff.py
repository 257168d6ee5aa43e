#!/usr/bin/env python3
"""rstdiff.py SEED: compares Model/MakeRst.lean with the `re` and `os.path` modules of Python on random texts (the patterns are those of /repo/make_rst.py)."""
import os, random, re, subprocess, sys
random.seed(int(sys.argv[1]) if len(sys.argv) > 1 else 0)
def tab(s):
    d = re.compile(r'\\providecommand{\\tabularnewline}{\\\\}'); u = re.compile(r'\\tabularnewline')
    if re.search(d, s): s = re.sub(d, '', s); s = re.sub(u, r'\\\\', s)
    return s
def png(s): return re.sub(re.compile(r'([figure|image])::\s*(.*?)\.pdf'), lambda m: '{}:: {}.png'.format(m.group(1), m.group(2)), s)
def cite(s): return re.sub(re.compile(r':raw-latex:\`\\cite\{(.*?)\}\`'), lambda m: ':cite:`{}`'.format(m.group(1)), s)
def eq(s):
    s = re.sub(re.compile(r'\\label\{eq:(.*?)\}', re.DOTALL), lambda m: '\n   :label: {}'.format(m.group(1)), s)
    return re.sub(re.compile(r'\[eq:(.*)]'), lambda m: ' :eq:`{}` '.format(m.group(1)), s)
FR = [r'\providecommand{\tabularnewline}{\\}', r'\tabularnewline', 'tabularnewline', 'figure::', 'image::', 'table::', 'x', '::', ' ', '\n', '\t', '\u00a0', '.pdf', '.', 'pdf', ':raw-latex:`\\cite{', ':raw-latex:', '`', '}`', '}', '{', r'\label{eq:', '[eq:', ']', ']', 'a', 'e', '|', '\\', '/', 'b.tex', '.rst', '..']
fs = [('fix_tabularnewline', tab), ('fix_pdf2png', png), ('fix_citations', cite), ('fix_eq_labels', eq)]
def lit(s): return '[' + ','.join(map(str, map(ord, s))) + ']'
cases = [''.join(random.choice(FR) for _ in range(random.randint(0, 14))) for _ in range(300)]
src = 'import Verif.Model.MakeRst\nopen Dec.MakeRst\ndef o (s : List Char) : String := "[" ++ String.intercalate "," (s.map fun c => toString c.toNat) ++ "]"\ndef i (s : List Nat) : List Char := s.map Char.ofNat\n'
want = []
for c in cases:
    for n, f in fs:
        src += '#eval o (%s (i %s))\n' % (n, lit(c)); want.append([ord(x) for x in f(c)])
    src += '#eval o (splitext (i %s)).1\n#eval o (splitext (i %s)).2\n' % (lit(c), lit(c))
    a, b = os.path.splitext(c); want += [[ord(x) for x in a], [ord(x) for x in b]]
open('/tmp/rstdiff.lean', 'w').write(src)
out = subprocess.run(['lake', 'env', 'lean', '/tmp/rstdiff.lean'], cwd=os.path.dirname(os.path.abspath(__file__)) + '/../lean', capture_output=True, text=True)
got = [eval(x) for x in re.findall(r'\[[^\]]*\]', out.stdout)]
print(len(want), len(got), sum(a != b for a, b in zip(want, got)), out.stderr[:300])
for a, b in zip(want, got):
    if a != b: print(repr(''.join(map(chr, a))), repr(''.join(map(chr, b)))); break
sys.exit(0 if want == got else 1)
