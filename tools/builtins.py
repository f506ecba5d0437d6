"""Generate lean/Verif/Model/Builtins.lean from /repo/src/pdfje/fonts/builtins.py (read as text, parsed, not run)."""
import ast
import re
import sys

SRC = '/repo/src/pdfje/fonts/builtins.py'
OUT = '/verif/lean/Verif/Model/Builtins.lean'


def table(x):
    if isinstance(x, ast.Call) and x.func.id == 'dictget':
        return ast.literal_eval(x.args[0]), ast.literal_eval(x.args[1])
    return None


fonts = []
for n in ast.walk(ast.parse(open(SRC).read())):
    if isinstance(n, ast.Call) and getattr(n.func, 'id', '') == 'BuiltinFont':
        name, fid, cw, k = n.args
        fonts.append((n.lineno, ast.literal_eval(name).decode(), table(cw), table(k), cw, k))
fonts.sort(key=lambda f: f[0])
tables = {}
for line, name, w, k, wn, kn in fonts:
    if w:
        tables.setdefault((tuple(w[0].items()), w[1], tuple(k[0].items()), k[1]), []).append((name, wn, kn))


def wrap(s, n=150):
    out, cur = [], ''
    for part in re.findall(r'[^,;]*[,;]?', s):
        if len(cur) + len(part) > n:
            out.append(cur)
            cur = ''
        cur += part
    return '\\\n    '.join(out + [cur])


def ident(name):
    a, *b = name.replace('Roman', '').split('-')
    return a.lower() + ''.join(b)


out = ['''import Verif.Model.Words
import Verif.Model.Resources
import Lean.Elab.Term
/-
Model of /repo/src/pdfje/fonts/builtins.py: widths and kerning pairs of the standard fonts. GENERATED by tools/builtins.py from the literals of that file.
Characters are written as code points. (Tables are written as strings, which are turned into list literals: elaborating such long list literals takes minutes.) The pairs of a kerning table are grouped by their first character. (Tables that are equal are written once.)
-/

namespace Pdfje

open Lean Elab Term in
/-- `"a v,b w"` stands for `[(a, v), (b, w)]`. -/
elab "widths! " s:str : term => do
  let num (t : String) : TermElabM Nat := match t.trimAscii.toString.toNat? with | some n => pure n | none => throwError "not a number: {t}"
  let table ← (s.getString.splitOn ",").mapM fun e => do
    match e.splitOn " " with
    | [a, v] => pure (← num a, ← num v)
    | _ => throwError "not an entry: {e}"
  return toExpr table

open Lean Elab Term in
/-- `"a:b v,c w;d:e x"` stands for `[(a, [(b, v), (c, w)]), (d, [(e, x)])]`. -/
elab "kerning! " s:str : term => do
  let num (t : String) : TermElabM Nat := match t.trimAscii.toString.toNat? with | some n => pure n | none => throwError "not a number: {t}"
  let int (t : String) : TermElabM Int := match t.toInt? with | some n => pure n | none => throwError "not a number: {t}"
  let table ← (s.getString.splitOn ";").mapM fun r => do
    match r.splitOn ":" with
    | [a, row] =>
      let row ← (row.splitOn ",").mapM fun e => do
        match e.splitOn " " with
        | [b, v] => pure (← num b, ← int v)
        | _ => throwError "not an entry: {e}"
      pure (← num a, row)
    | _ => throwError "not a row: {r}"
  return toExpr table

/-- common.py:349-358 `dictget`, on a dictionary with code points as keys. -/
def dictGet (table : List (Nat × Nat)) (default : Nat) (c : Char) : Nat := (table.lookup c.toNat).getD default

/-- common.py:349-358 `dictget` of a kerning table (all have the default 0). -/
def kernGet (table : List (Nat × List (Nat × Int))) (p : Char × Char) : Int := ((table.lookup p.1.toNat).bind fun row => row.lookup p.2.toNat).getD 0
''']
cases = []
for (w, wd, k, kd), users in tables.items():
    assert kd == 0
    i = ident(users[0][0])
    cite = lambda j: ' and '.join(f'fonts/builtins.py:{u[j].lineno}-{u[j].end_lineno} ({u[0]})' for u in users)
    out.append(f'/-- {cite(1)}: widths. -/\ndef {i}Widths : List (Nat × Nat) :=\n  widths! "{wrap(",".join(f"{ord(c)} {v}" for c, v in w))}"\n')
    rows = {}
    for (a, b), v in k:
        rows.setdefault(a, []).append((b, v))
    rl = [f'{ord(a)}:{",".join(f"{ord(b)} {v}" for b, v in r)}' for a, r in rows.items()]
    out.append(f'/-- {cite(2)}: kerning pairs. -/\ndef {i}Kerning : List (Nat × List (Nat × Int)) :=\n  kerning! "' + wrap(';'.join(rl)) + '"\n')
    for u in users:
        cases.append((u[0], f'⟨fun c => dictGet {i}Widths {wd} c, fun p => kernGet {i}Kerning p⟩'))
out.append('''/-- fonts/builtins.py:18-11068: the metrics of the standard fonts, by name. Courier is 600 wide, Symbol and ZapfDingbats 1000, without kerning (11047-11068). -/
def standardMetrics (f : BuiltinFont) : Metrics :=''')
for name, e in cases:
    out.append(f'  if f.name = b!"{name}" then {e} else')
out.append('  if f.name = b!"Symbol" ∨ f.name = b!"ZapfDingbats" then ⟨fun _ => 1000, fun _ => 0⟩ else ⟨fun _ => 600, fun _ => 0⟩\n')
out.append('end Pdfje')
text = '\n'.join(out) + '\n'
if '--check' in sys.argv:
    assert open(OUT).read() == text
    print('same')
else:
    open(OUT, 'w').write(text)
