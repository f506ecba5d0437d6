"""Generate lean/Verif/Model/English.lean from /repo/src/pdfje/vendor/hyphenate.py (read as text, parsed, not run)."""
import ast

SRC = '/repo/src/pdfje/vendor/hyphenate.py'
OUT = '/verif/lean/Verif/Model/English.lean'
for n in ast.parse(open(SRC).read()).body:
    if isinstance(n, ast.Assign) and n.targets[0].id == 'patterns':
        lines = [x for x in ast.literal_eval(n.value).split('\n') if x]
        first, last = n.lineno, n.end_lineno
out = ['import Verif.Model.Hyphenate', '/-',
       'Generated by tools/english.py: the patterns of the built-in English hyphenator, /repo/src/pdfje/vendor/hyphenate.py:%d-%d.' % (first, last), '-/', '',
       'namespace Pdfje', '', '/-- The characters of a string literal. -/', 'local macro "chars!" s:str : term => do',
       '  let cs : Array (Lean.TSyntax `term) := s.getString.toList.toArray.map fun c => ⟨Lean.Syntax.mkCharLit c⟩', '  `([$cs,*])', '']
parts = [lines[i:i + 50] for i in range(0, len(lines), 50)]
for i, p in enumerate(parts):
    out.append('/-- vendor/hyphenate.py:%d-%d, the lines of the text from number %d on. -/' % (first, last, 50 * i + 1))
    out.append('def englishLines%d : List (List Char) :=' % i)
    out.append('  [' + ',\n   '.join('chars! "%s"' % x for x in p) + ']')
    out.append('')
out.append('/-- vendor/hyphenate.py:%d-%d `patterns.split()`. -/' % (first, last))
out.append('def englishPatterns : List (List Char) :=\n  (' + ' ++ '.join('englishLines%d' % i for i in range(len(parts))) + ').flatMap splitText')
out.append('')
out.append('/-- vendor/hyphenate.py:518 `hyphenator`. -/')
out.append('def englishHyphenator : Option Hyphenator := Hyphenator.new englishPatterns englishExceptions')
out += ['', 'end Pdfje', '']
open(OUT, 'w').write('\n'.join(out))
