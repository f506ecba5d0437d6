import Verif.Model.Words
import Verif.Model.Resources
import Lean.Elab.Term
/-
Model of /repo/src/pdfje/fonts/builtins.py: widths and kerning pairs of the standard fonts. GENERATED by tools/builtins.py from the literals of that file.
Characters are written as code points. (Tables are written as strings, which are turned into list literals: elaborating such long list literals takes minutes.) The pairs of a kerning table are grouped by their first character. (Tables that are equal are written once.)
-/

namespace Pdfje

open Lean Elab Term in
/-- `"a v,b w"` stands for `[(a, v), (b, w)]`. -/
elab "widths! " s:str : term => do
  let num (t : String) : TermElabM Nat := match t.trimAscii.toString.toNat? with | some n => pure n | none => throwError "not a number: {t}"
  let table ← (s.getString.splitOn ",").mapM fun e => do
    match e.splitOn " " with
    | [a, v] => pure (← num a, ← num v)
    | _ => throwError "not an entry: {e}"
  return toExpr table

open Lean Elab Term in
/-- `"a:b v,c w;d:e x"` stands for `[(a, [(b, v), (c, w)]), (d, [(e, x)])]`. -/
elab "kerning! " s:str : term => do
  let num (t : String) : TermElabM Nat := match t.trimAscii.toString.toNat? with | some n => pure n | none => throwError "not a number: {t}"
  let int (t : String) : TermElabM Int := match t.toInt? with | some n => pure n | none => throwError "not a number: {t}"
  let table ← (s.getString.splitOn ";").mapM fun r => do
    match r.splitOn ":" with
    | [a, row] =>
      let row ← (row.splitOn ",").mapM fun e => do
        match e.splitOn " " with
        | [b, v] => pure (← num b, ← int v)
        | _ => throwError "not an entry: {e}"
      pure (← num a, row)
    | _ => throwError "not a row: {r}"
  return toExpr table

/-- common.py:349-358 `dictget`, on a dictionary with code points as keys. -/
def dictGet (table : List (Nat × Nat)) (default : Nat) (c : Char) : Nat := (table.lookup c.toNat).getD default

/-- common.py:349-358 `dictget` of a kerning table (all have the default 0). -/
def kernGet (table : List (Nat × List (Nat × Int))) (p : Char × Char) : Int := ((table.lookup p.1.toNat).bind fun row => row.lookup p.2.toNat).getD 0

/-- fonts/builtins.py:22-255 (Helvetica) and fonts/builtins.py:2987-3220 (Helvetica-Oblique): widths. -/
def helveticaWidths : List (Nat × Nat) :=
  widths! "32 278,33 278,34 355,35 556,36 556,37 889,38 667,39 191,40 333,41 333,42 389,43 584,44 278,45 333,46 278,47 278,48 556,49 556,50 556,51 556,52 556,\
    53 556,54 556,55 556,56 556,57 556,58 278,59 278,60 584,61 584,62 584,63 556,64 1015,65 667,66 667,67 722,68 722,69 667,70 611,71 778,72 722,73 278,\
    74 500,75 667,76 556,77 833,78 722,79 778,80 667,81 778,82 722,83 667,84 611,85 722,86 667,87 944,88 667,89 667,90 611,91 278,92 278,93 278,94 469,\
    95 556,96 333,97 556,98 556,99 500,100 556,101 556,102 278,103 556,104 556,105 222,106 222,107 500,108 222,109 833,110 556,111 556,112 556,113 556,\
    114 333,115 500,116 278,117 556,118 500,119 722,120 500,121 500,122 500,123 334,124 260,125 334,126 584,161 333,162 556,163 556,164 556,165 556,\
    166 260,167 556,169 737,170 370,171 556,172 584,174 737,176 400,177 584,178 333,179 333,182 537,183 278,185 333,186 365,187 556,188 834,189 834,\
    190 834,191 611,192 667,193 667,194 667,195 667,196 667,197 667,198 1000,199 722,200 667,201 667,202 667,203 667,204 278,205 278,206 278,207 278,\
    208 722,209 722,210 778,211 778,212 778,213 778,214 778,215 584,216 778,217 722,218 722,219 722,220 722,221 667,222 667,223 611,224 556,225 556,\
    226 556,227 556,228 556,229 556,230 889,231 500,232 556,233 556,234 556,235 556,236 278,237 278,238 278,239 278,240 556,241 556,242 556,243 556,\
    244 556,245 556,246 556,247 584,248 611,249 556,250 556,251 556,252 556,253 500,254 556,255 500,305 278,321 556,322 222,338 1000,339 944,352 667,\
    353 500,376 667,381 611,382 500,402 556,710 333,711 333,769 333,771 333,772 333,774 333,775 333,776 333,778 333,779 333,807 333,808 333,956 556,\
    8211 556,8212 1000,8216 222,8217 222,8218 222,8220 333,8221 333,8222 333,8224 556,8225 556,8226 350,8230 1000,8240 1000,8249 333,8250 333,8260 167,\
    8364 556,8482 1000,8722 584,64257 500,64258 500"

/-- fonts/builtins.py:256-1558 (Helvetica) and fonts/builtins.py:3221-4523 (Helvetica-Oblique): kerning pairs. -/
def helveticaKerning : List (Nat × List (Nat × Int)) :=
  kerning! "32:84 -50,86 -50,87 -40,89 -90,221 -90,376 -90,8216 -60,8220 -30;44:8217 -100,8221 -100;46:32 -60,8217 -100,8221 -100;58:32 -50;59:32 -50;65:67 -30,\
    71 -30,79 -30,81 -30,84 -120,85 -50,86 -70,87 -50,89 -100,117 -30,118 -40,119 -40,121 -40,199 -30,210 -30,211 -30,212 -30,213 -30,214 -30,216 -30,\
    217 -50,218 -50,219 -50,220 -50,221 -100,249 -30,250 -30,251 -30,252 -30,253 -40,255 -40,376 -100;66:44 -20,46 -20,85 -10,217 -10,218 -10,219 -10,\
    220 -10;67:44 -30,46 -30;68:44 -70,46 -70,65 -40,86 -70,87 -40,89 -90,192 -40,193 -40,194 -40,195 -40,196 -40,197 -40,221 -90,376 -90;70:44 -150,\
    46 -150,65 -80,97 -50,101 -30,111 -30,114 -45,192 -80,193 -80,194 -80,195 -80,196 -80,197 -80,224 -50,225 -50,226 -50,227 -50,228 -50,229 -50,232 -30,\
    233 -30,234 -30,235 -30,242 -30,243 -30,244 -30,245 -30,246 -30,248 -30;74:44 -30,46 -30,65 -20,97 -20,117 -20,192 -20,193 -20,194 -20,195 -20,\
    196 -20,197 -20,224 -20,225 -20,226 -20,227 -20,228 -20,229 -20,249 -20,250 -20,251 -20,252 -20;75:79 -50,101 -40,111 -40,117 -30,121 -50,210 -50,\
    211 -50,212 -50,213 -50,214 -50,216 -50,232 -40,233 -40,234 -40,235 -40,242 -40,243 -40,244 -40,245 -40,246 -40,248 -40,249 -30,250 -30,251 -30,\
    252 -30,253 -50,255 -50;76:84 -110,86 -110,87 -70,89 -140,121 -30,221 -140,253 -30,255 -30,376 -140,8217 -160,8221 -140;79:44 -40,46 -40,65 -20,\
    84 -40,86 -50,87 -30,88 -60,89 -70,192 -20,193 -20,194 -20,195 -20,196 -20,197 -20,221 -70,376 -70;80:44 -180,46 -180,65 -120,97 -40,101 -50,111 -50,\
    192 -120,193 -120,194 -120,195 -120,196 -120,197 -120,224 -40,225 -40,226 -40,227 -40,228 -40,229 -40,232 -50,233 -50,234 -50,235 -50,242 -50,243 -50,\
    244 -50,245 -50,246 -50,248 -50;81:85 -10,217 -10,218 -10,219 -10,220 -10;82:79 -20,84 -30,85 -40,86 -50,87 -30,89 -50,210 -20,211 -20,212 -20,\
    213 -20,214 -20,216 -20,217 -40,218 -40,219 -40,220 -40,221 -50,376 -50;83:44 -20,46 -20;84:44 -120,45 -140,46 -120,58 -20,59 -20,65 -120,79 -40,\
    97 -120,101 -120,111 -120,114 -120,117 -120,119 -120,121 -120,192 -120,193 -120,194 -120,195 -120,196 -120,197 -120,210 -40,211 -40,212 -40,213 -40,\
    214 -40,216 -40,224 -120,225 -120,226 -120,227 -60,228 -120,229 -120,232 -60,233 -120,234 -120,235 -120,242 -120,243 -120,244 -120,245 -60,246 -120,\
    248 -120,249 -120,250 -120,251 -120,252 -120,253 -120,255 -60;85:44 -40,46 -40,65 -40,192 -40,193 -40,194 -40,195 -40,196 -40,197 -40;86:44 -125,\
    45 -80,46 -125,58 -40,59 -40,65 -80,71 -40,79 -40,97 -70,101 -80,111 -80,117 -70,192 -80,193 -80,194 -80,195 -80,196 -80,197 -80,210 -40,211 -40,\
    212 -40,213 -40,214 -40,216 -40,224 -70,225 -70,226 -70,227 -70,228 -70,229 -70,232 -80,233 -80,234 -80,235 -80,242 -80,243 -80,244 -80,245 -80,\
    246 -80,248 -80,249 -70,250 -70,251 -70,252 -70;87:44 -80,45 -40,46 -80,65 -50,79 -20,97 -40,101 -30,111 -30,117 -30,121 -20,192 -50,193 -50,194 -50,\
    195 -50,196 -50,197 -50,210 -20,211 -20,212 -20,213 -20,214 -20,216 -20,224 -40,225 -40,226 -40,227 -40,228 -40,229 -40,232 -30,233 -30,234 -30,\
    235 -30,242 -30,243 -30,244 -30,245 -30,246 -30,248 -30,249 -30,250 -30,251 -30,252 -30,253 -20,255 -20;89:44 -140,45 -140,46 -140,58 -60,59 -60,\
    65 -110,79 -85,97 -140,101 -140,105 -20,111 -140,117 -110,192 -110,193 -110,194 -110,195 -110,196 -110,197 -110,210 -85,211 -85,212 -85,213 -85,\
    214 -85,216 -85,224 -140,225 -140,226 -140,227 -140,228 -140,229 -140,232 -140,233 -140,234 -140,235 -140,237 -20,242 -140,243 -140,244 -140,245 -140,\
    246 -140,248 -140,249 -110,250 -110,251 -110,252 -110;97:118 -20,119 -20,121 -30,253 -30,255 -30;98:44 -40,46 -40,98 -10,108 -20,117 -20,118 -20,\
    121 -20,249 -20,250 -20,251 -20,252 -20,253 -20,255 -20,322 -20;99:44 -15,107 -20;101:44 -15,46 -15,118 -30,119 -20,120 -30,121 -20,253 -20,255 -20;\
    102:44 -30,46 -30,97 -30,101 -30,111 -30,224 -30,225 -30,226 -30,227 -30,228 -30,229 -30,232 -30,233 -30,234 -30,235 -30,242 -30,243 -30,244 -30,\
    245 -30,246 -30,248 -30,305 -28,8217 50,8221 60;103:114 -10;104:121 -30,253 -30,255 -30;107:101 -20,111 -20,232 -20,233 -20,234 -20,235 -20,242 -20,\
    243 -20,244 -20,245 -20,246 -20,248 -20;109:117 -10,121 -15,249 -10,250 -10,251 -10,252 -10,253 -15,255 -15;110:117 -10,118 -20,121 -15,249 -10,\
    250 -10,251 -10,252 -10,253 -15,255 -15;111:44 -40,46 -40,118 -15,119 -15,120 -30,121 -30,253 -30,255 -30;112:44 -35,46 -35,121 -30,253 -30,255 -30;\
    114:44 -50,46 -50,58 30,59 30,97 -10,105 15,107 15,108 15,109 25,110 25,112 30,116 40,117 15,118 30,121 30,224 -10,225 -10,226 -10,227 -10,228 -10,\
    229 -10,236 15,237 15,238 15,239 15,241 25,249 15,250 15,251 15,252 15,253 30,255 30,322 15;115:44 -15,46 -15,119 -30;118:44 -80,46 -80,97 -25,\
    101 -25,111 -25,224 -25,225 -25,226 -25,227 -25,228 -25,229 -25,232 -25,233 -25,234 -25,235 -25,242 -25,243 -25,244 -25,245 -25,246 -25,248 -25;\
    119:44 -60,46 -60,97 -15,101 -10,111 -10,224 -15,225 -15,226 -15,227 -15,228 -15,229 -15,232 -10,233 -10,234 -10,235 -10,242 -10,243 -10,244 -10,\
    245 -10,246 -10,248 -10;120:101 -30,232 -30,233 -30,234 -30,235 -30;121:44 -100,46 -100,97 -20,101 -20,111 -20,224 -20,225 -20,226 -20,227 -20,\
    228 -20,229 -20,232 -20,233 -20,234 -20,235 -20,242 -20,243 -20,244 -20,245 -20,246 -20,248 -20;122:101 -15,111 -15,232 -15,233 -15,234 -15,235 -15,\
    242 -15,243 -15,244 -15,245 -15,246 -15,248 -15;192:67 -30,71 -30,79 -30,81 -30,84 -120,85 -50,86 -70,87 -50,89 -100,117 -30,118 -40,119 -40,121 -40,\
    199 -30,210 -30,211 -30,212 -30,213 -30,214 -30,216 -30,217 -50,218 -50,219 -50,220 -50,221 -100,249 -30,250 -30,251 -30,252 -30,253 -40,255 -40,\
    376 -100;193:67 -30,71 -30,79 -30,81 -30,84 -120,85 -50,86 -70,87 -50,89 -100,117 -30,118 -40,119 -40,121 -40,199 -30,210 -30,211 -30,212 -30,213 -30,\
    214 -30,216 -30,217 -50,218 -50,219 -50,220 -50,221 -100,249 -30,250 -30,251 -30,252 -30,253 -40,255 -40,376 -100;194:67 -30,71 -30,79 -30,81 -30,\
    84 -120,85 -50,86 -70,87 -50,89 -100,117 -30,118 -40,119 -40,121 -40,199 -30,210 -30,211 -30,212 -30,213 -30,214 -30,216 -30,217 -50,218 -50,219 -50,\
    220 -50,221 -100,249 -30,250 -30,251 -30,252 -30,253 -40,255 -40,376 -100;195:67 -30,71 -30,79 -30,81 -30,84 -120,85 -50,86 -70,87 -50,89 -100,\
    117 -30,118 -40,119 -40,121 -40,199 -30,210 -30,211 -30,212 -30,213 -30,214 -30,216 -30,217 -50,218 -50,219 -50,220 -50,221 -100,249 -30,250 -30,\
    251 -30,252 -30,253 -40,255 -40,376 -100;196:67 -30,71 -30,79 -30,81 -30,84 -120,85 -50,86 -70,87 -50,89 -100,117 -30,118 -40,119 -40,121 -40,199 -30,\
    210 -30,211 -30,212 -30,213 -30,214 -30,216 -30,217 -50,218 -50,219 -50,220 -50,221 -100,249 -30,250 -30,251 -30,252 -30,253 -40,255 -40,376 -100;\
    197:67 -30,71 -30,79 -30,81 -30,84 -120,85 -50,86 -70,87 -50,89 -100,117 -30,118 -40,119 -40,121 -40,199 -30,210 -30,211 -30,212 -30,213 -30,214 -30,\
    216 -30,217 -50,218 -50,219 -50,220 -50,221 -100,249 -30,250 -30,251 -30,252 -30,253 -40,255 -40,376 -100;199:44 -30,46 -30;210:44 -40,46 -40,65 -20,\
    84 -40,86 -50,87 -30,88 -60,89 -70,192 -20,193 -20,194 -20,195 -20,196 -20,197 -20,221 -70,376 -70;211:44 -40,46 -40,65 -20,84 -40,86 -50,87 -30,\
    88 -60,89 -70,192 -20,193 -20,194 -20,195 -20,196 -20,197 -20,221 -70,376 -70;212:44 -40,46 -40,65 -20,84 -40,86 -50,87 -30,88 -60,89 -70,192 -20,\
    193 -20,194 -20,195 -20,196 -20,197 -20,221 -70,376 -70;213:44 -40,46 -40,65 -20,84 -40,86 -50,87 -30,88 -60,89 -70,192 -20,193 -20,194 -20,195 -20,\
    196 -20,197 -20,221 -70,376 -70;214:44 -40,46 -40,65 -20,84 -40,86 -50,87 -30,88 -60,89 -70,192 -20,193 -20,194 -20,195 -20,196 -20,197 -20,221 -70,\
    376 -70;216:44 -40,46 -40,65 -20,84 -40,86 -50,87 -30,88 -60,89 -70,192 -20,193 -20,194 -20,195 -20,196 -20,197 -20,221 -70,376 -70;217:44 -40,46 -40,\
    65 -40,192 -40,193 -40,194 -40,195 -40,196 -40,197 -40;218:44 -40,46 -40,65 -40,192 -40,193 -40,194 -40,195 -40,196 -40,197 -40;219:44 -40,46 -40,\
    65 -40,192 -40,193 -40,194 -40,195 -40,196 -40,197 -40;220:44 -40,46 -40,65 -40,192 -40,193 -40,194 -40,195 -40,196 -40,197 -40;221:44 -140,45 -140,\
    46 -140,58 -60,59 -60,65 -110,79 -85,97 -140,101 -140,105 -20,111 -140,117 -110,192 -110,193 -110,194 -110,195 -110,196 -110,197 -110,210 -85,211 -85,\
    212 -85,213 -85,214 -85,216 -85,224 -140,225 -140,226 -140,227 -70,228 -140,229 -140,232 -140,233 -140,234 -140,235 -140,237 -20,242 -140,243 -140,\
    244 -140,245 -140,246 -140,248 -140,249 -110,250 -110,251 -110,252 -110;224:118 -20,119 -20,121 -30,253 -30,255 -30;225:118 -20,119 -20,121 -30,\
    253 -30,255 -30;226:118 -20,119 -20,121 -30,253 -30,255 -30;227:118 -20,119 -20,121 -30,253 -30,255 -30;228:118 -20,119 -20,121 -30,253 -30,255 -30;\
    229:118 -20,119 -20,121 -30,253 -30,255 -30;231:44 -15,107 -20;232:44 -15,46 -15,118 -30,119 -20,120 -30,121 -20,253 -20,255 -20;233:44 -15,46 -15,\
    118 -30,119 -20,120 -30,121 -20,253 -20,255 -20;234:44 -15,46 -15,118 -30,119 -20,120 -30,121 -20,253 -20,255 -20;235:44 -15,46 -15,118 -30,119 -20,\
    120 -30,121 -20,253 -20,255 -20;241:117 -10,118 -20,121 -15,249 -10,250 -10,251 -10,252 -10,253 -15,255 -15;242:44 -40,46 -40,118 -15,119 -15,120 -30,\
    121 -30,253 -30,255 -30;243:44 -40,46 -40,118 -15,119 -15,120 -30,121 -30,253 -30,255 -30;244:44 -40,46 -40,118 -15,119 -15,120 -30,121 -30,253 -30,\
    255 -30;245:44 -40,46 -40,118 -15,119 -15,120 -30,121 -30,253 -30,255 -30;246:44 -40,46 -40,118 -15,119 -15,120 -30,121 -30,253 -30,255 -30;\
    248:44 -95,46 -95,97 -55,98 -55,99 -55,100 -55,101 -55,102 -55,103 -55,104 -55,105 -55,106 -55,107 -55,108 -55,109 -55,110 -55,111 -55,112 -55,\
    113 -55,114 -55,115 -55,116 -55,117 -55,118 -70,119 -70,120 -85,121 -70,122 -55,224 -55,225 -55,226 -55,227 -55,228 -55,229 -55,231 -55,232 -55,\
    233 -55,234 -55,235 -55,236 -55,237 -55,238 -55,239 -55,241 -55,242 -55,243 -55,244 -55,245 -55,246 -55,248 -55,249 -55,250 -55,251 -55,252 -55,\
    253 -70,255 -70,322 -55,353 -55,382 -55;253:44 -100,46 -100,97 -20,101 -20,111 -20,224 -20,225 -20,226 -20,227 -20,228 -20,229 -20,232 -20,233 -20,\
    234 -20,235 -20,242 -20,243 -20,244 -20,245 -20,246 -20,248 -20;255:44 -100,46 -100,97 -20,101 -20,111 -20,224 -20,225 -20,226 -20,227 -20,228 -20,\
    229 -20,232 -20,233 -20,234 -20,235 -20,242 -20,243 -20,244 -20,245 -20,246 -20,248 -20;321:84 -110,86 -110,87 -70,89 -140,121 -30,221 -140,253 -30,\
    255 -30,376 -140,8217 -160,8221 -140;352:44 -20,46 -20;353:44 -15,46 -15,119 -30;376:44 -140,45 -140,46 -140,58 -60,59 -60,65 -110,79 -85,97 -140,\
    101 -140,105 -20,111 -140,117 -110,192 -110,193 -110,194 -110,195 -110,196 -110,197 -110,210 -85,211 -85,212 -85,213 -85,214 -85,216 -85,224 -140,\
    225 -140,226 -140,227 -70,228 -140,229 -140,232 -140,233 -140,234 -140,235 -140,237 -20,242 -140,243 -140,244 -140,245 -140,246 -140,248 -140,\
    249 -110,250 -110,251 -110,252 -110;382:101 -15,111 -15,232 -15,233 -15,234 -15,235 -15,242 -15,243 -15,244 -15,245 -15,246 -15,248 -15;8216:8216 -57;\
    8217:32 -70,100 -50,114 -50,115 -50,353 -50,8217 -57;8221:32 -40"

/-- fonts/builtins.py:1563-1796 (Helvetica-Bold) and fonts/builtins.py:4528-4761 (Helvetica-BoldOblique): widths. -/
def helveticaBoldWidths : List (Nat × Nat) :=
  widths! "32 278,33 333,34 474,35 556,36 556,37 889,38 722,39 238,40 333,41 333,42 389,43 584,44 278,45 333,46 278,47 278,48 556,49 556,50 556,51 556,52 556,\
    53 556,54 556,55 556,56 556,57 556,58 333,59 333,60 584,61 584,62 584,63 611,64 975,65 722,66 722,67 722,68 722,69 667,70 611,71 778,72 722,73 278,\
    74 556,75 722,76 611,77 833,78 722,79 778,80 667,81 778,82 722,83 667,84 611,85 722,86 667,87 944,88 667,89 667,90 611,91 333,92 278,93 333,94 584,\
    95 556,96 333,97 556,98 611,99 556,100 611,101 556,102 333,103 611,104 611,105 278,106 278,107 556,108 278,109 889,110 611,111 611,112 611,113 611,\
    114 389,115 556,116 333,117 611,118 556,119 778,120 556,121 556,122 500,123 389,124 280,125 389,126 584,161 333,162 556,163 556,164 556,165 556,\
    166 280,167 556,169 737,170 370,171 556,172 584,174 737,176 400,177 584,178 333,179 333,182 556,183 278,185 333,186 365,187 556,188 834,189 834,\
    190 834,191 611,192 722,193 722,194 722,195 722,196 722,197 722,198 1000,199 722,200 667,201 667,202 667,203 667,204 278,205 278,206 278,207 278,\
    208 722,209 722,210 778,211 778,212 778,213 778,214 778,215 584,216 778,217 722,218 722,219 722,220 722,221 667,222 667,223 611,224 556,225 556,\
    226 556,227 556,228 556,229 556,230 889,231 556,232 556,233 556,234 556,235 556,236 278,237 278,238 278,239 278,240 611,241 611,242 611,243 611,\
    244 611,245 611,246 611,247 584,248 611,249 611,250 611,251 611,252 611,253 556,254 611,255 556,305 278,321 611,322 278,338 1000,339 944,352 667,\
    353 556,376 667,381 611,382 500,402 556,710 333,711 333,769 333,771 333,772 333,774 333,775 333,776 333,778 333,779 333,807 333,808 333,956 611,\
    8211 556,8212 1000,8216 278,8217 278,8218 278,8220 500,8221 500,8222 500,8224 556,8225 556,8226 350,8230 1000,8240 1000,8249 333,8250 333,8260 167,\
    8364 556,8482 1000,8722 584,64257 611,64258 611"

/-- fonts/builtins.py:1797-2982 (Helvetica-Bold) and fonts/builtins.py:4762-5947 (Helvetica-BoldOblique): kerning pairs. -/
def helveticaBoldKerning : List (Nat × List (Nat × Int)) :=
  kerning! "32:84 -100,86 -80,87 -80,89 -120,221 -120,376 -120,8216 -60,8220 -80;44:32 -40,8217 -120,8221 -120;46:32 -40,8217 -120,8221 -120;58:32 -40;59:32 -40;\
    65:67 -40,71 -50,79 -40,81 -40,84 -90,85 -50,86 -80,87 -60,89 -110,117 -30,118 -40,119 -30,121 -30,199 -40,210 -40,211 -40,212 -40,213 -40,214 -40,\
    216 -40,217 -50,218 -50,219 -50,220 -50,221 -110,249 -30,250 -30,251 -30,252 -30,253 -30,255 -30,376 -110;66:65 -30,85 -10,192 -30,193 -30,194 -30,\
    195 -30,196 -30,197 -30,217 -10,218 -10,219 -10,220 -10;68:44 -30,46 -30,65 -40,86 -40,87 -40,89 -70,192 -40,193 -40,194 -40,195 -40,196 -40,197 -40,\
    221 -70,376 -70;70:44 -100,46 -100,65 -80,97 -20,192 -80,193 -80,194 -80,195 -80,196 -80,197 -80,224 -20,225 -20,226 -20,227 -20,228 -20,229 -20;\
    74:44 -20,46 -20,65 -20,117 -20,192 -20,193 -20,194 -20,195 -20,196 -20,197 -20,249 -20,250 -20,251 -20,252 -20;75:79 -30,101 -15,111 -35,117 -30,\
    121 -40,210 -30,211 -30,212 -30,213 -30,214 -30,216 -30,232 -15,233 -15,234 -15,235 -15,242 -35,243 -35,244 -35,245 -35,246 -35,248 -35,249 -30,\
    250 -30,251 -30,252 -30,253 -40,255 -40;76:84 -90,86 -110,87 -80,89 -120,121 -30,221 -120,253 -30,255 -30,376 -120,8217 -140,8221 -140;79:44 -40,\
    46 -40,65 -50,84 -40,86 -50,87 -50,88 -50,89 -70,192 -50,193 -50,194 -50,195 -50,196 -50,197 -50,221 -70,376 -70;80:44 -120,46 -120,65 -100,97 -30,\
    101 -30,111 -40,192 -100,193 -100,194 -100,195 -100,196 -100,197 -100,224 -30,225 -30,226 -30,227 -30,228 -30,229 -30,232 -30,233 -30,234 -30,235 -30,\
    242 -40,243 -40,244 -40,245 -40,246 -40,248 -40;81:44 20,46 20,85 -10,217 -10,218 -10,219 -10,220 -10;82:79 -20,84 -20,85 -20,86 -50,87 -40,89 -50,\
    210 -20,211 -20,212 -20,213 -20,214 -20,216 -20,217 -20,218 -20,219 -20,220 -20,221 -50,376 -50;84:44 -80,45 -120,46 -80,58 -40,59 -40,65 -90,79 -40,\
    97 -80,101 -60,111 -80,114 -80,117 -90,119 -60,121 -60,192 -90,193 -90,194 -90,195 -90,196 -90,197 -90,210 -40,211 -40,212 -40,213 -40,214 -40,\
    216 -40,224 -80,225 -80,226 -80,227 -80,228 -80,229 -80,232 -60,233 -60,234 -60,235 -60,242 -80,243 -80,244 -80,245 -80,246 -80,248 -80,249 -90,\
    250 -90,251 -90,252 -90,253 -60,255 -60;85:44 -30,46 -30,65 -50,192 -50,193 -50,194 -50,195 -50,196 -50,197 -50;86:44 -120,45 -80,46 -120,58 -40,\
    59 -40,65 -80,71 -50,79 -50,97 -60,101 -50,111 -90,117 -60,192 -80,193 -80,194 -80,195 -80,196 -80,197 -80,210 -50,211 -50,212 -50,213 -50,214 -50,\
    216 -50,224 -60,225 -60,226 -60,227 -60,228 -60,229 -60,232 -50,233 -50,234 -50,235 -50,242 -90,243 -90,244 -90,245 -90,246 -90,248 -90,249 -60,\
    250 -60,251 -60,252 -60;87:44 -80,45 -40,46 -80,58 -10,59 -10,65 -60,79 -20,97 -40,101 -35,111 -60,117 -45,121 -20,192 -60,193 -60,194 -60,195 -60,\
    196 -60,197 -60,210 -20,211 -20,212 -20,213 -20,214 -20,216 -20,224 -40,225 -40,226 -40,227 -40,228 -40,229 -40,232 -35,233 -35,234 -35,235 -35,\
    242 -60,243 -60,244 -60,245 -60,246 -60,248 -60,249 -45,250 -45,251 -45,252 -45,253 -20,255 -20;89:44 -100,46 -100,58 -50,59 -50,65 -110,79 -70,\
    97 -90,101 -80,111 -100,117 -100,192 -110,193 -110,194 -110,195 -110,196 -110,197 -110,210 -70,211 -70,212 -70,213 -70,214 -70,216 -70,224 -90,\
    225 -90,226 -90,227 -90,228 -90,229 -90,232 -80,233 -80,234 -80,235 -80,242 -100,243 -100,244 -100,245 -100,246 -100,248 -100,249 -100,250 -100,\
    251 -100,252 -100;97:103 -10,118 -15,119 -15,121 -20,253 -20,255 -20;98:108 -10,117 -20,118 -20,121 -20,249 -20,250 -20,251 -20,252 -20,253 -20,\
    255 -20,322 -10;99:104 -10,107 -20,108 -20,121 -10,253 -10,255 -10,322 -20;100:100 -10,118 -15,119 -15,121 -15,253 -15,255 -15;101:44 10,46 20,\
    118 -15,119 -15,120 -15,121 -15,253 -15,255 -15;102:44 -10,46 -10,101 -10,111 -20,232 -10,233 -10,234 -10,235 -10,242 -20,243 -20,244 -20,245 -20,\
    246 -20,248 -20,8217 30,8221 30;103:101 10,103 -10,232 10,233 10,234 10,235 10;104:121 -20,253 -20,255 -20;107:111 -15,242 -15,243 -15,244 -15,\
    245 -15,246 -15,248 -15;108:119 -15,121 -15,253 -15,255 -15;109:117 -20,121 -30,249 -20,250 -20,251 -20,252 -20,253 -30,255 -30;110:117 -10,118 -40,\
    121 -20,249 -10,250 -10,251 -10,252 -10,253 -20,255 -20;111:118 -20,119 -15,120 -30,121 -20,253 -20,255 -20;112:121 -15,253 -15,255 -15;114:44 -60,\
    45 -20,46 -60,99 -20,100 -20,103 -15,111 -20,113 -20,115 -15,116 20,118 10,121 10,231 -20,242 -20,243 -20,244 -20,245 -20,246 -20,248 -20,253 10,\
    255 10,353 -15;115:119 -15;118:44 -80,46 -80,97 -20,111 -30,224 -20,225 -20,226 -20,227 -20,228 -20,229 -20,242 -30,243 -30,244 -30,245 -30,246 -30,\
    248 -30;119:44 -40,46 -40,111 -20,242 -20,243 -20,244 -20,245 -20,246 -20,248 -20;120:101 -10,232 -10,233 -10,234 -10,235 -10;121:44 -80,46 -80,\
    97 -30,101 -10,111 -25,224 -30,225 -30,226 -30,227 -30,228 -30,229 -30,232 -10,233 -10,234 -10,235 -10,242 -25,243 -25,244 -25,245 -25,246 -25,\
    248 -25;122:101 10,232 10,233 10,234 10,235 10;192:67 -40,71 -50,79 -40,81 -40,84 -90,85 -50,86 -80,87 -60,89 -110,117 -30,118 -40,119 -30,121 -30,\
    199 -40,210 -40,211 -40,212 -40,213 -40,214 -40,216 -40,217 -50,218 -50,219 -50,220 -50,221 -110,249 -30,250 -30,251 -30,252 -30,253 -30,255 -30,\
    376 -110;193:67 -40,71 -50,79 -40,81 -40,84 -90,85 -50,86 -80,87 -60,89 -110,117 -30,118 -40,119 -30,121 -30,199 -40,210 -40,211 -40,212 -40,213 -40,\
    214 -40,216 -40,217 -50,218 -50,219 -50,220 -50,221 -110,249 -30,250 -30,251 -30,252 -30,253 -30,255 -30,376 -110;194:67 -40,71 -50,79 -40,81 -40,\
    84 -90,85 -50,86 -80,87 -60,89 -110,117 -30,118 -40,119 -30,121 -30,199 -40,210 -40,211 -40,212 -40,213 -40,214 -40,216 -40,217 -50,218 -50,219 -50,\
    220 -50,221 -110,249 -30,250 -30,251 -30,252 -30,253 -30,255 -30,376 -110;195:67 -40,71 -50,79 -40,81 -40,84 -90,85 -50,86 -80,87 -60,89 -110,117 -30,\
    118 -40,119 -30,121 -30,199 -40,210 -40,211 -40,212 -40,213 -40,214 -40,216 -40,217 -50,218 -50,219 -50,220 -50,221 -110,249 -30,250 -30,251 -30,\
    252 -30,253 -30,255 -30,376 -110;196:67 -40,71 -50,79 -40,81 -40,84 -90,85 -50,86 -80,87 -60,89 -110,117 -30,118 -40,119 -30,121 -30,199 -40,210 -40,\
    211 -40,212 -40,213 -40,214 -40,216 -40,217 -50,218 -50,219 -50,220 -50,221 -110,249 -30,250 -30,251 -30,252 -30,253 -30,255 -30,376 -110;197:67 -40,\
    71 -50,79 -40,81 -40,84 -90,85 -50,86 -80,87 -60,89 -110,117 -30,118 -40,119 -30,121 -30,199 -40,210 -40,211 -40,212 -40,213 -40,214 -40,216 -40,\
    217 -50,218 -50,219 -50,220 -50,221 -110,249 -30,250 -30,251 -30,252 -30,253 -30,255 -30,376 -110;210:44 -40,46 -40,65 -50,84 -40,86 -50,87 -50,\
    88 -50,89 -70,192 -50,193 -50,194 -50,195 -50,196 -50,197 -50,221 -70,376 -70;211:44 -40,46 -40,65 -50,84 -40,86 -50,87 -50,88 -50,89 -70,192 -50,\
    193 -50,194 -50,195 -50,196 -50,197 -50,221 -70,376 -70;212:44 -40,46 -40,65 -50,84 -40,86 -50,87 -50,88 -50,89 -70,192 -50,193 -50,194 -50,195 -50,\
    196 -50,197 -50,221 -70,376 -70;213:44 -40,46 -40,65 -50,84 -40,86 -50,87 -50,88 -50,89 -70,192 -50,193 -50,194 -50,195 -50,196 -50,197 -50,221 -70,\
    376 -70;214:44 -40,46 -40,65 -50,84 -40,86 -50,87 -50,88 -50,89 -70,192 -50,193 -50,194 -50,195 -50,196 -50,197 -50,221 -70,376 -70;216:44 -40,46 -40,\
    65 -50,84 -40,86 -50,87 -50,88 -50,89 -70,192 -50,193 -50,194 -50,195 -50,196 -50,197 -50,221 -70,376 -70;217:44 -30,46 -30,65 -50,192 -50,193 -50,\
    194 -50,195 -50,196 -50,197 -50;218:44 -30,46 -30,65 -50,192 -50,193 -50,194 -50,195 -50,196 -50,197 -50;219:44 -30,46 -30,65 -50,192 -50,193 -50,\
    194 -50,195 -50,196 -50,197 -50;220:44 -30,46 -30,65 -50,192 -50,193 -50,194 -50,195 -50,196 -50,197 -50;221:44 -100,46 -100,58 -50,59 -50,65 -110,\
    79 -70,97 -90,101 -80,111 -100,117 -100,192 -110,193 -110,194 -110,195 -110,196 -110,197 -110,210 -70,211 -70,212 -70,213 -70,214 -70,216 -70,224 -90,\
    225 -90,226 -90,227 -90,228 -90,229 -90,232 -80,233 -80,234 -80,235 -80,242 -100,243 -100,244 -100,245 -100,246 -100,248 -100,249 -100,250 -100,\
    251 -100,252 -100;224:103 -10,118 -15,119 -15,121 -20,253 -20,255 -20;225:103 -10,118 -15,119 -15,121 -20,253 -20,255 -20;226:103 -10,118 -15,119 -15,\
    121 -20,253 -20,255 -20;227:103 -10,118 -15,119 -15,121 -20,253 -20,255 -20;228:103 -10,118 -15,119 -15,121 -20,253 -20,255 -20;229:103 -10,118 -15,\
    119 -15,121 -20,253 -20,255 -20;231:104 -10,107 -20,108 -20,121 -10,253 -10,255 -10,322 -20;232:44 10,46 20,118 -15,119 -15,120 -15,121 -15,253 -15,\
    255 -15;233:44 10,46 20,118 -15,119 -15,120 -15,121 -15,253 -15,255 -15;234:44 10,46 20,118 -15,119 -15,120 -15,121 -15,253 -15,255 -15;235:44 10,\
    46 20,118 -15,119 -15,120 -15,121 -15,253 -15,255 -15;241:117 -10,118 -40,121 -20,249 -10,250 -10,251 -10,252 -10,253 -20,255 -20;242:118 -20,119 -15,\
    120 -30,121 -20,253 -20,255 -20;243:118 -20,119 -15,120 -30,121 -20,253 -20,255 -20;244:118 -20,119 -15,120 -30,121 -20,253 -20,255 -20;245:118 -20,\
    119 -15,120 -30,121 -20,253 -20,255 -20;246:118 -20,119 -15,120 -30,121 -20,253 -20,255 -20;248:118 -20,119 -15,120 -30,121 -20,253 -20,255 -20;\
    253:44 -80,46 -80,97 -30,101 -10,111 -25,224 -30,225 -30,226 -30,227 -30,228 -30,229 -30,232 -10,233 -10,234 -10,235 -10,242 -25,243 -25,244 -25,\
    245 -25,246 -25,248 -25;255:44 -80,46 -80,97 -30,101 -10,111 -25,224 -30,225 -30,226 -30,227 -30,228 -30,229 -30,232 -10,233 -10,234 -10,235 -10,\
    242 -25,243 -25,244 -25,245 -25,246 -25,248 -25;321:84 -90,86 -110,87 -80,89 -120,121 -30,221 -120,253 -30,255 -30,376 -120,8217 -140,8221 -140;\
    322:119 -15,121 -15,253 -15,255 -15;353:119 -15;376:44 -100,46 -100,58 -50,59 -50,65 -110,79 -70,97 -90,101 -80,111 -100,117 -100,192 -110,193 -110,\
    194 -110,195 -110,196 -110,197 -110,210 -70,211 -70,212 -70,213 -70,214 -70,216 -70,224 -90,225 -90,226 -90,227 -90,228 -90,229 -90,232 -80,233 -80,\
    234 -80,235 -80,242 -100,243 -100,244 -100,245 -100,246 -100,248 -100,249 -100,250 -100,251 -100,252 -100;382:101 10,232 10,233 10,234 10,235 10;\
    8216:8216 -46;8217:32 -80,100 -80,108 -20,114 -40,115 -60,118 -20,322 -20,353 -60,8217 -46;8221:32 -80"

/-- fonts/builtins.py:5954-6187 (Times-Roman): widths. -/
def timesWidths : List (Nat × Nat) :=
  widths! "32 250,33 333,34 408,35 500,36 500,37 833,38 778,39 180,40 333,41 333,42 500,43 564,44 250,45 333,46 250,47 278,48 500,49 500,50 500,51 500,52 500,\
    53 500,54 500,55 500,56 500,57 500,58 278,59 278,60 564,61 564,62 564,63 444,64 921,65 722,66 667,67 667,68 722,69 611,70 556,71 722,72 722,73 333,\
    74 389,75 722,76 611,77 889,78 722,79 722,80 556,81 722,82 667,83 556,84 611,85 722,86 722,87 944,88 722,89 722,90 611,91 333,92 278,93 333,94 469,\
    95 500,96 333,97 444,98 500,99 444,100 500,101 444,102 333,103 500,104 500,105 278,106 278,107 500,108 278,109 778,110 500,111 500,112 500,113 500,\
    114 333,115 389,116 278,117 500,118 500,119 722,120 500,121 500,122 444,123 480,124 200,125 480,126 541,161 333,162 500,163 500,164 500,165 500,\
    166 200,167 500,169 760,170 276,171 500,172 564,174 760,176 400,177 564,178 300,179 300,182 453,183 250,185 300,186 310,187 500,188 750,189 750,\
    190 750,191 444,192 722,193 722,194 722,195 722,196 722,197 722,198 889,199 667,200 611,201 611,202 611,203 611,204 333,205 333,206 333,207 333,\
    208 722,209 722,210 722,211 722,212 722,213 722,214 722,215 564,216 722,217 722,218 722,219 722,220 722,221 722,222 556,223 500,224 444,225 444,\
    226 444,227 444,228 444,229 444,230 667,231 444,232 444,233 444,234 444,235 444,236 278,237 278,238 278,239 278,240 500,241 500,242 500,243 500,\
    244 500,245 500,246 500,247 564,248 500,249 500,250 500,251 500,252 500,253 500,254 500,255 500,305 278,321 611,322 278,338 889,339 722,352 556,\
    353 389,376 722,381 611,382 444,402 500,710 333,711 333,769 333,771 333,772 333,774 333,775 333,776 333,778 333,779 333,807 333,808 333,956 500,\
    8211 500,8212 1000,8216 333,8217 333,8218 333,8220 444,8221 444,8222 444,8224 500,8225 500,8226 350,8230 1000,8240 1000,8249 333,8250 333,8260 167,\
    8364 500,8482 980,8722 564,64257 556,64258 556"

/-- fonts/builtins.py:6188-7203 (Times-Roman): kerning pairs. -/
def timesKerning : List (Nat × List (Nat × Int)) :=
  kerning! "32:65 -55,84 -18,86 -50,87 -30,89 -90,192 -55,193 -55,194 -55,195 -55,196 -55,197 -55,221 -90,376 -90;44:8217 -70,8221 -70;46:8217 -70,8221 -70;\
    65:67 -40,71 -40,79 -55,81 -55,84 -111,85 -55,86 -135,87 -90,89 -105,118 -74,119 -92,121 -92,199 -40,210 -55,211 -55,212 -55,213 -55,214 -55,216 -55,\
    217 -55,218 -55,219 -55,220 -55,221 -105,253 -92,255 -92,376 -105,8217 -111;66:65 -35,85 -10,192 -35,193 -35,194 -35,195 -35,196 -35,197 -35,217 -10,\
    218 -10,219 -10,220 -10;68:65 -40,86 -40,87 -30,89 -55,192 -40,193 -40,194 -40,195 -40,196 -40,197 -40,221 -55,376 -55;70:44 -80,46 -80,65 -74,97 -15,\
    111 -15,192 -74,193 -74,194 -74,195 -74,196 -74,197 -74,224 -15,225 -15,226 -15,227 -15,228 -15,229 -15,242 -15,243 -15,244 -15,245 -15,246 -15,\
    248 -15;74:65 -60,192 -60,193 -60,194 -60,195 -60,196 -60,197 -60;75:79 -30,101 -25,111 -35,117 -15,121 -25,210 -30,211 -30,212 -30,213 -30,214 -30,\
    216 -30,232 -25,233 -25,234 -25,235 -25,242 -35,243 -35,244 -35,245 -35,246 -35,248 -35,249 -15,250 -15,251 -15,252 -15,253 -25,255 -25;76:84 -92,\
    86 -100,87 -74,89 -100,121 -55,221 -100,253 -55,255 -55,376 -100,8217 -92;78:65 -35,192 -35,193 -35,194 -35,195 -35,196 -35,197 -35;79:65 -35,84 -40,\
    86 -50,87 -35,88 -40,89 -50,192 -35,193 -35,194 -35,195 -35,196 -35,197 -35,221 -50,376 -50;80:44 -111,46 -111,65 -92,97 -15,192 -92,193 -92,194 -92,\
    195 -92,196 -92,197 -92,224 -15,225 -15,226 -15,227 -15,228 -15,229 -15;81:85 -10,217 -10,218 -10,219 -10,220 -10;82:79 -40,84 -60,85 -40,86 -80,\
    87 -55,89 -65,210 -40,211 -40,212 -40,213 -40,214 -40,216 -40,217 -40,218 -40,219 -40,220 -40,221 -65,376 -65;84:44 -74,45 -92,46 -74,58 -50,59 -55,\
    65 -93,79 -18,97 -80,101 -70,105 -35,111 -80,114 -35,117 -45,119 -80,121 -80,192 -93,193 -93,194 -93,195 -93,196 -93,197 -93,210 -18,211 -18,212 -18,\
    213 -18,214 -18,216 -18,224 -40,225 -80,226 -80,227 -40,228 -40,229 -80,232 -70,233 -70,234 -70,235 -30,237 -35,242 -80,243 -80,244 -80,245 -80,\
    246 -80,248 -80,249 -45,250 -45,251 -45,252 -45,253 -80,255 -80;85:65 -40,192 -40,193 -40,194 -40,195 -40,196 -40,197 -40;86:44 -129,45 -100,46 -129,\
    58 -74,59 -74,65 -135,71 -15,79 -40,97 -111,101 -111,105 -60,111 -129,117 -75,192 -135,193 -135,194 -135,195 -135,196 -135,197 -135,210 -40,211 -40,\
    212 -40,213 -40,214 -40,216 -40,224 -71,225 -111,226 -71,227 -71,228 -71,229 -111,232 -71,233 -111,234 -71,235 -71,236 -20,237 -60,238 -20,239 -20,\
    242 -89,243 -129,244 -129,245 -89,246 -89,248 -129,249 -75,250 -75,251 -75,252 -75;87:44 -92,45 -65,46 -92,58 -37,59 -37,65 -120,79 -10,97 -80,\
    101 -80,105 -40,111 -80,117 -50,121 -73,192 -120,193 -120,194 -120,195 -120,196 -120,197 -120,210 -10,211 -10,212 -10,213 -10,214 -10,216 -10,224 -80,\
    225 -80,226 -80,227 -80,228 -80,229 -80,232 -40,233 -80,234 -80,235 -40,237 -40,242 -80,243 -80,244 -80,245 -80,246 -80,248 -80,249 -50,250 -50,\
    251 -50,252 -50,253 -73,255 -73;89:44 -129,45 -111,46 -129,58 -92,59 -92,65 -120,79 -30,97 -100,101 -100,105 -55,111 -110,117 -111,192 -120,193 -120,\
    194 -120,195 -120,196 -120,197 -120,210 -30,211 -30,212 -30,213 -30,214 -30,216 -30,224 -60,225 -100,226 -100,227 -60,228 -60,229 -100,232 -60,\
    233 -100,234 -100,235 -60,237 -55,242 -70,243 -110,244 -110,245 -70,246 -70,248 -110,249 -71,250 -111,251 -111,252 -71;97:118 -20,119 -15;98:46 -40,\
    117 -20,118 -15,249 -20,250 -20,251 -20,252 -20;99:121 -15,253 -15,255 -15;101:103 -15,118 -25,119 -25,120 -15,121 -15,253 -15,255 -15;102:97 -10,\
    102 -25,105 -20,224 -10,225 -10,226 -10,227 -10,228 -10,229 -10,237 -20,305 -50,8217 55;103:97 -5,224 -5,225 -5,226 -5,227 -5,228 -5,229 -5;\
    104:121 -5,253 -5,255 -5;105:118 -25;107:101 -10,111 -10,121 -15,232 -10,233 -10,234 -10,235 -10,242 -10,243 -10,244 -10,245 -10,246 -10,248 -10,\
    253 -15,255 -15;108:119 -10;110:118 -40,121 -15,253 -15,255 -15;111:118 -15,119 -25,121 -10,253 -10,255 -10;112:121 -10,253 -10,255 -10;114:44 -40,\
    45 -20,46 -55,103 -18;118:44 -65,46 -65,97 -25,101 -15,111 -20,224 -25,225 -25,226 -25,227 -25,228 -25,229 -25,232 -15,233 -15,234 -15,235 -15,\
    242 -20,243 -20,244 -20,245 -20,246 -20,248 -20;119:44 -65,46 -65,97 -10,111 -10,224 -10,225 -10,226 -10,227 -10,228 -10,229 -10,242 -10,243 -10,\
    244 -10,245 -10,246 -10,248 -10;120:101 -15,232 -15,233 -15,234 -15,235 -15;121:44 -65,46 -65;192:67 -40,71 -40,79 -55,81 -55,84 -111,85 -55,86 -135,\
    87 -90,89 -105,118 -74,119 -92,121 -92,199 -40,210 -55,211 -55,212 -55,213 -55,214 -55,216 -55,217 -55,218 -55,219 -55,220 -55,221 -105,253 -92,\
    255 -92,376 -105,8217 -111;193:67 -40,71 -40,79 -55,81 -55,84 -111,85 -55,86 -135,87 -90,89 -105,118 -74,119 -92,121 -92,199 -40,210 -55,211 -55,\
    212 -55,213 -55,214 -55,216 -55,217 -55,218 -55,219 -55,220 -55,221 -105,253 -92,255 -92,376 -105,8217 -111;194:67 -40,71 -40,79 -55,81 -55,84 -111,\
    85 -55,86 -135,87 -90,89 -105,118 -74,119 -92,121 -92,199 -40,210 -55,211 -55,212 -55,213 -55,214 -55,216 -55,217 -55,218 -55,219 -55,220 -55,\
    221 -105,253 -92,255 -92,376 -105,8217 -111;195:67 -40,71 -40,79 -55,81 -55,84 -111,85 -55,86 -135,87 -90,89 -105,118 -74,119 -92,121 -92,199 -40,\
    210 -55,211 -55,212 -55,213 -55,214 -55,216 -55,217 -55,218 -55,219 -55,220 -55,221 -105,253 -92,255 -92,376 -105,8217 -111;196:67 -40,71 -40,79 -55,\
    81 -55,84 -111,85 -55,86 -135,87 -90,89 -105,118 -74,119 -92,121 -92,199 -40,210 -55,211 -55,212 -55,213 -55,214 -55,216 -55,217 -55,218 -55,219 -55,\
    220 -55,221 -105,253 -92,255 -92,376 -105,8217 -111;197:67 -40,71 -40,79 -55,81 -55,84 -111,85 -55,86 -135,87 -90,89 -105,118 -74,119 -92,121 -92,\
    199 -40,210 -55,211 -55,212 -55,213 -55,214 -55,216 -55,217 -55,218 -55,219 -55,220 -55,221 -105,253 -92,255 -92,376 -105,8217 -111;209:65 -35,\
    192 -35,193 -35,194 -35,195 -35,196 -35,197 -35;210:65 -35,84 -40,86 -50,87 -35,88 -40,89 -50,192 -35,193 -35,194 -35,195 -35,196 -35,197 -35,221 -50,\
    376 -50;211:65 -35,84 -40,86 -50,87 -35,88 -40,89 -50,192 -35,193 -35,194 -35,195 -35,196 -35,197 -35,221 -50,376 -50;212:65 -35,84 -40,86 -50,87 -35,\
    88 -40,89 -50,192 -35,193 -35,194 -35,195 -35,196 -35,197 -35,221 -50,376 -50;213:65 -35,84 -40,86 -50,87 -35,88 -40,89 -50,192 -35,193 -35,194 -35,\
    195 -35,196 -35,197 -35,221 -50,376 -50;214:65 -35,84 -40,86 -50,87 -35,88 -40,89 -50,192 -35,193 -35,194 -35,195 -35,196 -35,197 -35,221 -50,376 -50;\
    216:65 -35,84 -40,86 -50,87 -35,88 -40,89 -50,192 -35,193 -35,194 -35,195 -35,196 -35,197 -35,221 -50,376 -50;217:65 -40,192 -40,193 -40,194 -40,\
    195 -40,196 -40,197 -40;218:65 -40,192 -40,193 -40,194 -40,195 -40,196 -40,197 -40;219:65 -40,192 -40,193 -40,194 -40,195 -40,196 -40,197 -40;\
    220:65 -40,192 -40,193 -40,194 -40,195 -40,196 -40,197 -40;221:44 -129,45 -111,46 -129,58 -92,59 -92,65 -120,79 -30,97 -100,101 -100,105 -55,111 -110,\
    117 -111,192 -120,193 -120,194 -120,195 -120,196 -120,197 -120,210 -30,211 -30,212 -30,213 -30,214 -30,216 -30,224 -60,225 -100,226 -100,227 -60,\
    228 -60,229 -100,232 -60,233 -100,234 -100,235 -60,237 -55,242 -70,243 -110,244 -110,245 -70,246 -70,248 -110,249 -71,250 -111,251 -111,252 -71;\
    224:118 -20,119 -15;225:118 -20,119 -15;226:118 -20,119 -15;227:118 -20,119 -15;228:118 -20,119 -15;229:118 -20,119 -15;231:121 -15,253 -15,255 -15;\
    232:103 -15,118 -25,119 -25,120 -15,121 -15,253 -15,255 -15;233:103 -15,118 -25,119 -25,120 -15,121 -15,253 -15,255 -15;234:103 -15,118 -25,119 -25,\
    120 -15,121 -15,253 -15,255 -15;235:103 -15,118 -25,119 -25,120 -15,121 -15,253 -15,255 -15;236:118 -25;237:118 -25;238:118 -25;239:118 -25;\
    241:118 -40,121 -15,253 -15,255 -15;242:118 -15,119 -25,121 -10,253 -10,255 -10;243:118 -15,119 -25,121 -10,253 -10,255 -10;244:118 -15,119 -25,\
    121 -10,253 -10,255 -10;245:118 -15,119 -25,121 -10,253 -10,255 -10;246:118 -15,119 -25,121 -10,253 -10,255 -10;248:118 -15,119 -25,121 -10,253 -10,\
    255 -10;253:44 -65,46 -65;255:44 -65,46 -65;321:84 -92,86 -100,87 -74,89 -100,121 -55,221 -100,253 -55,255 -55,376 -100,8217 -92;322:119 -10;\
    376:44 -129,45 -111,46 -129,58 -92,59 -92,65 -120,79 -30,97 -100,101 -100,105 -55,111 -110,117 -111,192 -120,193 -120,194 -120,195 -120,196 -120,\
    197 -120,210 -30,211 -30,212 -30,213 -30,214 -30,216 -30,224 -60,225 -100,226 -100,227 -100,228 -60,229 -100,232 -60,233 -100,234 -100,235 -60,\
    237 -55,242 -70,243 -110,244 -110,245 -70,246 -70,248 -110,249 -71,250 -111,251 -111,252 -71;8216:65 -80,192 -80,193 -80,194 -80,195 -80,196 -80,\
    197 -80,8216 -74;8217:32 -74,100 -50,108 -10,114 -50,115 -55,116 -18,118 -50,322 -10,353 -55,8217 -74;8220:65 -80,192 -80,193 -80,194 -80,195 -80,\
    196 -80,197 -80"

/-- fonts/builtins.py:7208-7441 (Times-Bold): widths. -/
def timesBoldWidths : List (Nat × Nat) :=
  widths! "32 250,33 333,34 555,35 500,36 500,37 1000,38 833,39 278,40 333,41 333,42 500,43 570,44 250,45 333,46 250,47 278,48 500,49 500,50 500,51 500,52 500,\
    53 500,54 500,55 500,56 500,57 500,58 333,59 333,60 570,61 570,62 570,63 500,64 930,65 722,66 667,67 722,68 722,69 667,70 611,71 778,72 778,73 389,\
    74 500,75 778,76 667,77 944,78 722,79 778,80 611,81 778,82 722,83 556,84 667,85 722,86 722,87 1000,88 722,89 722,90 667,91 333,92 278,93 333,94 581,\
    95 500,96 333,97 500,98 556,99 444,100 556,101 444,102 333,103 500,104 556,105 278,106 333,107 556,108 278,109 833,110 556,111 500,112 556,113 556,\
    114 444,115 389,116 333,117 556,118 500,119 722,120 500,121 500,122 444,123 394,124 220,125 394,126 520,161 333,162 500,163 500,164 500,165 500,\
    166 220,167 500,169 747,170 300,171 500,172 570,174 747,176 400,177 570,178 300,179 300,182 540,183 250,185 300,186 330,187 500,188 750,189 750,\
    190 750,191 500,192 722,193 722,194 722,195 722,196 722,197 722,198 1000,199 722,200 667,201 667,202 667,203 667,204 389,205 389,206 389,207 389,\
    208 722,209 722,210 778,211 778,212 778,213 778,214 778,215 570,216 778,217 722,218 722,219 722,220 722,221 722,222 611,223 556,224 500,225 500,\
    226 500,227 500,228 500,229 500,230 722,231 444,232 444,233 444,234 444,235 444,236 278,237 278,238 278,239 278,240 500,241 556,242 500,243 500,\
    244 500,245 500,246 500,247 570,248 500,249 556,250 556,251 556,252 556,253 500,254 556,255 500,305 278,321 667,322 278,338 1000,339 722,352 556,\
    353 389,376 722,381 667,382 444,402 500,710 333,711 333,769 333,771 333,772 333,774 333,775 333,776 333,778 333,779 333,807 333,808 333,956 556,\
    8211 500,8212 1000,8216 333,8217 333,8218 333,8220 500,8221 500,8222 500,8224 500,8225 500,8226 350,8230 1000,8240 1000,8249 333,8250 333,8260 167,\
    8364 500,8482 1000,8722 570,64257 556,64258 556"

/-- fonts/builtins.py:7442-8517 (Times-Bold): kerning pairs. -/
def timesBoldKerning : List (Nat × List (Nat × Int)) :=
  kerning! "32:65 -55,84 -30,86 -45,87 -30,89 -55,192 -55,193 -55,194 -55,195 -55,196 -55,197 -55,221 -55,376 -55;44:8217 -55,8221 -45;46:8217 -55,8221 -55;\
    65:67 -55,71 -55,79 -45,81 -45,84 -95,85 -50,86 -145,87 -130,89 -100,112 -25,117 -50,118 -100,119 -90,121 -74,199 -55,210 -45,211 -45,212 -45,213 -45,\
    214 -45,216 -45,217 -50,218 -50,219 -50,220 -50,221 -100,249 -50,250 -50,251 -50,252 -50,253 -74,255 -74,376 -100,8217 -74;66:65 -30,85 -10,192 -30,\
    193 -30,194 -30,195 -30,196 -30,197 -30,217 -10,218 -10,219 -10,220 -10;68:46 -20,65 -35,86 -40,87 -40,89 -40,192 -35,193 -35,194 -35,195 -35,196 -35,\
    197 -35,221 -40,376 -40;70:44 -92,46 -110,65 -90,97 -25,101 -25,111 -25,192 -90,193 -90,194 -90,195 -90,196 -90,197 -90,224 -25,225 -25,226 -25,\
    227 -25,228 -25,229 -25,232 -25,233 -25,234 -25,235 -25,242 -25,243 -25,244 -25,245 -25,246 -25,248 -25;74:46 -20,65 -30,97 -15,101 -15,111 -15,\
    117 -15,192 -30,193 -30,194 -30,195 -30,196 -30,197 -30,224 -15,225 -15,226 -15,227 -15,228 -15,229 -15,232 -15,233 -15,234 -15,235 -15,242 -15,\
    243 -15,244 -15,245 -15,246 -15,248 -15,249 -15,250 -15,251 -15,252 -15;75:79 -30,101 -25,111 -25,117 -15,121 -45,210 -30,211 -30,212 -30,213 -30,\
    214 -30,216 -30,232 -25,233 -25,234 -25,235 -25,242 -25,243 -25,244 -25,245 -25,246 -25,248 -25,249 -15,250 -15,251 -15,252 -15,253 -45,255 -45;\
    76:84 -92,86 -92,87 -92,89 -92,121 -55,221 -92,253 -55,255 -55,376 -92,8217 -110,8221 -20;78:65 -20,192 -20,193 -20,194 -20,195 -20,196 -20,197 -20;\
    79:65 -40,84 -40,86 -50,87 -50,88 -40,89 -50,192 -40,193 -40,194 -40,195 -40,196 -40,197 -40,221 -50,376 -50;80:44 -92,46 -110,65 -74,97 -10,101 -20,\
    111 -20,192 -74,193 -74,194 -74,195 -74,196 -74,197 -74,224 -10,225 -10,226 -10,227 -10,228 -10,229 -10,232 -20,233 -20,234 -20,235 -20,242 -20,\
    243 -20,244 -20,245 -20,246 -20,248 -20;81:46 -20,85 -10,217 -10,218 -10,219 -10,220 -10;82:79 -30,84 -40,85 -30,86 -55,87 -35,89 -35,210 -30,211 -30,\
    212 -30,213 -30,214 -30,216 -30,217 -30,218 -30,219 -30,220 -30,221 -35,376 -35;84:44 -74,45 -92,46 -90,58 -74,59 -74,65 -90,79 -18,97 -92,101 -92,\
    105 -18,111 -92,114 -74,117 -92,119 -74,121 -34,192 -90,193 -90,194 -90,195 -90,196 -90,197 -90,210 -18,211 -18,212 -18,213 -18,214 -18,216 -18,\
    224 -52,225 -92,226 -52,227 -52,228 -52,229 -92,232 -52,233 -92,234 -92,235 -52,237 -18,242 -92,243 -92,244 -92,245 -92,246 -92,248 -92,249 -92,\
    250 -92,251 -92,252 -92,253 -34,255 -34;85:44 -50,46 -50,65 -60,192 -60,193 -60,194 -60,195 -60,196 -60,197 -60;86:44 -129,45 -74,46 -145,58 -92,\
    59 -92,65 -135,71 -30,79 -45,97 -92,101 -100,105 -37,111 -100,117 -92,192 -135,193 -135,194 -135,195 -135,196 -135,197 -135,210 -45,211 -45,212 -45,\
    213 -45,214 -45,216 -45,224 -92,225 -92,226 -92,227 -92,228 -92,229 -92,232 -100,233 -100,234 -100,235 -100,236 -37,237 -37,238 -37,239 -37,242 -100,\
    243 -100,244 -100,245 -100,246 -100,248 -100,249 -92,250 -92,251 -92,252 -92;87:44 -92,45 -37,46 -92,58 -55,59 -55,65 -120,79 -10,97 -65,101 -65,\
    105 -18,111 -75,117 -50,121 -60,192 -120,193 -120,194 -120,195 -120,196 -120,197 -120,210 -10,211 -10,212 -10,213 -10,214 -10,216 -10,224 -65,225 -65,\
    226 -65,227 -65,228 -65,229 -65,232 -65,233 -65,234 -65,235 -65,237 -18,242 -75,243 -75,244 -75,245 -75,246 -75,248 -75,249 -50,250 -50,251 -50,\
    252 -50,253 -60,255 -60;89:44 -92,45 -92,46 -92,58 -92,59 -92,65 -110,79 -35,97 -85,101 -111,105 -37,111 -111,117 -92,192 -110,193 -110,194 -110,\
    195 -110,196 -110,197 -110,210 -35,211 -35,212 -35,213 -35,214 -35,216 -35,224 -85,225 -85,226 -85,227 -85,228 -85,229 -85,232 -71,233 -111,234 -111,\
    235 -71,237 -37,242 -111,243 -111,244 -111,245 -111,246 -111,248 -111,249 -92,250 -92,251 -92,252 -92;97:118 -25;98:46 -40,98 -10,117 -20,118 -15,\
    249 -20,250 -20,251 -20,252 -20;100:119 -15;101:118 -15;102:44 -15,46 -15,105 -25,111 -25,242 -25,243 -25,244 -25,245 -25,246 -25,248 -25,305 -35,\
    8217 55,8221 50;103:46 -15;104:121 -15,253 -15,255 -15;105:118 -10;107:101 -10,111 -15,121 -15,232 -10,233 -10,234 -10,235 -10,242 -15,243 -15,\
    244 -15,245 -15,246 -15,248 -15,253 -15,255 -15;110:118 -40;111:118 -10,119 -10;114:44 -92,45 -37,46 -100,99 -18,101 -18,103 -10,110 -15,111 -18,\
    112 -10,113 -18,118 -10,231 -18,232 -18,233 -18,234 -18,235 -18,241 -15,242 -18,243 -18,244 -18,245 -18,246 -18,248 -18;118:44 -55,46 -70,97 -10,\
    101 -10,111 -10,224 -10,225 -10,226 -10,227 -10,228 -10,229 -10,232 -10,233 -10,234 -10,235 -10,242 -10,243 -10,244 -10,245 -10,246 -10,248 -10;\
    119:44 -55,46 -70,111 -10,242 -10,243 -10,244 -10,245 -10,246 -10,248 -10;121:44 -55,46 -70,101 -10,111 -25,232 -10,233 -10,234 -10,235 -10,242 -25,\
    243 -25,244 -25,245 -25,246 -25,248 -25;192:67 -55,71 -55,79 -45,81 -45,84 -95,85 -50,86 -145,87 -130,89 -100,112 -25,117 -50,118 -100,119 -90,\
    121 -74,199 -55,210 -45,211 -45,212 -45,213 -45,214 -45,216 -45,217 -50,218 -50,219 -50,220 -50,221 -100,249 -50,250 -50,251 -50,252 -50,253 -74,\
    255 -74,376 -100,8217 -74;193:67 -55,71 -55,79 -45,81 -45,84 -95,85 -50,86 -145,87 -130,89 -100,112 -25,117 -50,118 -100,119 -90,121 -74,199 -55,\
    210 -45,211 -45,212 -45,213 -45,214 -45,216 -45,217 -50,218 -50,219 -50,220 -50,221 -100,249 -50,250 -50,251 -50,252 -50,253 -74,255 -74,376 -100,\
    8217 -74;194:67 -55,71 -55,79 -45,81 -45,84 -95,85 -50,86 -145,87 -130,89 -100,112 -25,117 -50,118 -100,119 -90,121 -74,199 -55,210 -45,211 -45,\
    212 -45,213 -45,214 -45,216 -45,217 -50,218 -50,219 -50,220 -50,221 -100,249 -50,250 -50,251 -50,252 -50,253 -74,255 -74,376 -100,8217 -74;195:67 -55,\
    71 -55,79 -45,81 -45,84 -95,85 -50,86 -145,87 -130,89 -100,112 -25,117 -50,118 -100,119 -90,121 -74,199 -55,210 -45,211 -45,212 -45,213 -45,214 -45,\
    216 -45,217 -50,218 -50,219 -50,220 -50,221 -100,249 -50,250 -50,251 -50,252 -50,253 -74,255 -74,376 -100,8217 -74;196:67 -55,71 -55,79 -45,81 -45,\
    84 -95,85 -50,86 -145,87 -130,89 -100,112 -25,117 -50,118 -100,119 -90,121 -74,199 -55,210 -45,211 -45,212 -45,213 -45,214 -45,216 -45,217 -50,\
    218 -50,219 -50,220 -50,221 -100,249 -50,250 -50,251 -50,252 -50,253 -74,255 -74,376 -100,8217 -74;197:67 -55,71 -55,79 -45,81 -45,84 -95,85 -50,\
    86 -145,87 -130,89 -100,112 -25,117 -50,118 -100,119 -90,121 -74,199 -55,210 -45,211 -45,212 -45,213 -45,214 -45,216 -45,217 -50,218 -50,219 -50,\
    220 -50,221 -100,249 -50,250 -50,251 -50,252 -50,253 -74,255 -74,376 -100,8217 -74;209:65 -20,192 -20,193 -20,194 -20,195 -20,196 -20,197 -20;\
    210:65 -40,84 -40,86 -50,87 -50,88 -40,89 -50,192 -40,193 -40,194 -40,195 -40,196 -40,197 -40,221 -50,376 -50;211:65 -40,84 -40,86 -50,87 -50,88 -40,\
    89 -50,192 -40,193 -40,194 -40,195 -40,196 -40,197 -40,221 -50,376 -50;212:65 -40,84 -40,86 -50,87 -50,88 -40,89 -50,192 -40,193 -40,194 -40,195 -40,\
    196 -40,197 -40,221 -50,376 -50;213:65 -40,84 -40,86 -50,87 -50,88 -40,89 -50,192 -40,193 -40,194 -40,195 -40,196 -40,197 -40,221 -50,376 -50;\
    214:65 -40,84 -40,86 -50,87 -50,88 -40,89 -50,192 -40,193 -40,194 -40,195 -40,196 -40,197 -40,221 -50,376 -50;216:65 -40,84 -40,86 -50,87 -50,88 -40,\
    89 -50,192 -40,193 -40,194 -40,195 -40,196 -40,197 -40,221 -50,376 -50;217:44 -50,46 -50,65 -60,192 -60,193 -60,194 -60,195 -60,196 -60,197 -60;\
    218:44 -50,46 -50,65 -60,192 -60,193 -60,194 -60,195 -60,196 -60,197 -60;219:44 -50,46 -50,65 -60,192 -60,193 -60,194 -60,195 -60,196 -60,197 -60;\
    220:44 -50,46 -50,65 -60,192 -60,193 -60,194 -60,195 -60,196 -60,197 -60;221:44 -92,45 -92,46 -92,58 -92,59 -92,65 -110,79 -35,97 -85,101 -111,\
    105 -37,111 -111,117 -92,192 -110,193 -110,194 -110,195 -110,196 -110,197 -110,210 -35,211 -35,212 -35,213 -35,214 -35,216 -35,224 -85,225 -85,\
    226 -85,227 -85,228 -85,229 -85,232 -71,233 -111,234 -111,235 -71,237 -37,242 -111,243 -111,244 -111,245 -111,246 -111,248 -111,249 -92,250 -92,\
    251 -92,252 -92;224:118 -25;225:118 -25;226:118 -25;227:118 -25;228:118 -25;229:118 -25;232:118 -15;233:118 -15;234:118 -15;235:118 -15;236:118 -10;\
    237:118 -10;238:118 -10;239:118 -10;241:118 -40;242:118 -10,119 -10;243:118 -10,119 -10;244:118 -10,119 -10;245:118 -10,119 -10;246:118 -10,119 -10;\
    248:118 -10,119 -10;253:44 -55,46 -70,101 -10,111 -25,232 -10,233 -10,234 -10,235 -10,242 -25,243 -25,244 -25,245 -25,246 -25,248 -25;255:44 -55,\
    46 -70,101 -10,111 -25,232 -10,233 -10,234 -10,235 -10,242 -25,243 -25,244 -25,245 -25,246 -25,248 -25;321:84 -92,86 -92,87 -92,89 -92,121 -55,\
    221 -92,253 -55,255 -55,376 -92,8217 -110,8221 -20;376:44 -92,45 -92,46 -92,58 -92,59 -92,65 -110,79 -35,97 -85,101 -111,105 -37,111 -111,117 -92,\
    192 -110,193 -110,194 -110,195 -110,196 -110,197 -110,210 -35,211 -35,212 -35,213 -35,214 -35,216 -35,224 -85,225 -85,226 -85,227 -85,228 -85,229 -85,\
    232 -71,233 -111,234 -111,235 -71,237 -37,242 -111,243 -111,244 -111,245 -111,246 -111,248 -111,249 -92,250 -92,251 -92,252 -92;8216:65 -10,192 -10,\
    193 -10,194 -10,195 -10,196 -10,197 -10,8216 -63;8217:32 -74,100 -20,114 -20,115 -37,118 -20,353 -37,8217 -63;8220:65 -10,192 -10,193 -10,194 -10,\
    195 -10,196 -10,197 -10"

/-- fonts/builtins.py:8522-8755 (Times-Italic): widths. -/
def timesItalicWidths : List (Nat × Nat) :=
  widths! "32 250,33 333,34 420,35 500,36 500,37 833,38 778,39 214,40 333,41 333,42 500,43 675,44 250,45 333,46 250,47 278,48 500,49 500,50 500,51 500,52 500,\
    53 500,54 500,55 500,56 500,57 500,58 333,59 333,60 675,61 675,62 675,63 500,64 920,65 611,66 611,67 667,68 722,69 611,70 611,71 722,72 722,73 333,\
    74 444,75 667,76 556,77 833,78 667,79 722,80 611,81 722,82 611,83 500,84 556,85 722,86 611,87 833,88 611,89 556,90 556,91 389,92 278,93 389,94 422,\
    95 500,96 333,97 500,98 500,99 444,100 500,101 444,102 278,103 500,104 500,105 278,106 278,107 444,108 278,109 722,110 500,111 500,112 500,113 500,\
    114 389,115 389,116 278,117 500,118 444,119 667,120 444,121 444,122 389,123 400,124 275,125 400,126 541,161 389,162 500,163 500,164 500,165 500,\
    166 275,167 500,169 760,170 276,171 500,172 675,174 760,176 400,177 675,178 300,179 300,182 523,183 250,185 300,186 310,187 500,188 750,189 750,\
    190 750,191 500,192 611,193 611,194 611,195 611,196 611,197 611,198 889,199 667,200 611,201 611,202 611,203 611,204 333,205 333,206 333,207 333,\
    208 722,209 667,210 722,211 722,212 722,213 722,214 722,215 675,216 722,217 722,218 722,219 722,220 722,221 556,222 611,223 500,224 500,225 500,\
    226 500,227 500,228 500,229 500,230 667,231 444,232 444,233 444,234 444,235 444,236 278,237 278,238 278,239 278,240 500,241 500,242 500,243 500,\
    244 500,245 500,246 500,247 675,248 500,249 500,250 500,251 500,252 500,253 444,254 500,255 444,305 278,321 556,322 278,338 944,339 667,352 500,\
    353 389,376 556,381 556,382 389,402 500,710 333,711 333,769 333,771 333,772 333,774 333,775 333,776 333,778 333,779 333,807 333,808 333,956 500,\
    8211 500,8212 889,8216 333,8217 333,8218 333,8220 556,8221 556,8222 556,8224 500,8225 500,8226 350,8230 889,8240 1000,8249 333,8250 333,8260 167,\
    8364 500,8482 980,8722 675,64257 500,64258 500"

/-- fonts/builtins.py:8756-9798 (Times-Italic): kerning pairs. -/
def timesItalicKerning : List (Nat × List (Nat × Int)) :=
  kerning! "32:65 -18,84 -18,86 -35,87 -40,89 -75,192 -18,193 -18,194 -18,195 -18,196 -18,197 -18,221 -75,376 -75;44:8217 -140,8221 -140;46:8217 -140,8221 -140;\
    65:67 -30,71 -35,79 -40,81 -40,84 -37,85 -50,86 -105,87 -95,89 -55,117 -20,118 -55,119 -55,121 -55,199 -30,210 -40,211 -40,212 -40,213 -40,214 -40,\
    216 -40,217 -50,218 -50,219 -50,220 -50,221 -55,249 -20,250 -20,251 -20,252 -20,253 -55,255 -55,376 -55,8217 -37;66:65 -25,85 -10,192 -25,193 -25,\
    194 -25,195 -25,196 -25,197 -25,217 -10,218 -10,219 -10,220 -10;68:65 -35,86 -40,87 -40,89 -40,192 -35,193 -35,194 -35,195 -35,196 -35,197 -35,\
    221 -40,376 -40;70:44 -135,46 -135,65 -115,97 -75,101 -75,105 -45,111 -105,114 -55,192 -115,193 -115,194 -115,195 -115,196 -115,197 -115,224 -75,\
    225 -75,226 -75,227 -75,228 -75,229 -75,232 -75,233 -75,234 -75,235 -75,236 -45,237 -45,238 -45,239 -45,242 -105,243 -105,244 -105,245 -105,246 -105,\
    248 -105;74:44 -25,46 -25,65 -40,97 -35,101 -25,111 -25,117 -35,192 -40,193 -40,194 -40,195 -40,196 -40,197 -40,224 -35,225 -35,226 -35,227 -35,\
    228 -35,229 -35,232 -25,233 -25,234 -25,235 -25,242 -25,243 -25,244 -25,245 -25,246 -25,248 -25,249 -35,250 -35,251 -35,252 -35;75:79 -50,101 -35,\
    111 -40,117 -40,121 -40,210 -50,211 -50,212 -50,213 -50,214 -50,216 -50,232 -35,233 -35,234 -35,235 -35,242 -40,243 -40,244 -40,245 -40,246 -40,\
    248 -40,249 -40,250 -40,251 -40,252 -40,253 -40,255 -40;76:84 -20,86 -55,87 -55,89 -20,121 -30,221 -20,253 -30,255 -30,376 -20,8217 -37;78:65 -27,\
    192 -27,193 -27,194 -27,195 -27,196 -27,197 -27;79:65 -55,84 -40,86 -50,87 -50,88 -40,89 -50,192 -55,193 -55,194 -55,195 -55,196 -55,197 -55,221 -50,\
    376 -50;80:44 -135,46 -135,65 -90,97 -80,101 -80,111 -80,192 -90,193 -90,194 -90,195 -90,196 -90,197 -90,224 -80,225 -80,226 -80,227 -80,228 -80,\
    229 -80,232 -80,233 -80,234 -80,235 -80,242 -80,243 -80,244 -80,245 -80,246 -80,248 -80;81:85 -10,217 -10,218 -10,219 -10,220 -10;82:79 -40,85 -40,\
    86 -18,87 -18,89 -18,210 -40,211 -40,212 -40,213 -40,214 -40,216 -40,217 -40,218 -40,219 -40,220 -40,221 -18,376 -18;84:44 -74,45 -74,46 -74,58 -55,\
    59 -65,65 -50,79 -18,97 -92,101 -92,105 -55,111 -92,114 -55,117 -55,119 -74,121 -74,192 -50,193 -50,194 -50,195 -50,196 -50,197 -50,210 -18,211 -18,\
    212 -18,213 -18,214 -18,216 -18,224 -92,225 -92,226 -92,227 -92,228 -92,229 -92,232 -52,233 -92,234 -52,235 -52,237 -55,242 -92,243 -92,244 -92,\
    245 -92,246 -92,248 -92,249 -55,250 -55,251 -55,252 -55,253 -74,255 -34;85:44 -25,46 -25,65 -40,192 -40,193 -40,194 -40,195 -40,196 -40,197 -40;\
    86:44 -129,45 -55,46 -129,58 -65,59 -74,65 -60,79 -30,97 -111,101 -111,105 -74,111 -111,117 -74,192 -60,193 -60,194 -60,195 -60,196 -60,197 -60,\
    210 -30,211 -30,212 -30,213 -30,214 -30,216 -30,224 -111,225 -111,226 -111,227 -111,228 -111,229 -111,232 -71,233 -111,234 -111,235 -71,236 -34,\
    237 -74,238 -34,239 -34,242 -111,243 -111,244 -111,245 -111,246 -111,248 -111,249 -74,250 -74,251 -74,252 -74;87:44 -92,45 -37,46 -92,58 -65,59 -65,\
    65 -60,79 -25,97 -92,101 -92,105 -55,111 -92,117 -55,121 -70,192 -60,193 -60,194 -60,195 -60,196 -60,197 -60,210 -25,211 -25,212 -25,213 -25,214 -25,\
    216 -25,224 -92,225 -92,226 -92,227 -92,228 -92,229 -92,232 -52,233 -92,234 -92,235 -52,237 -55,242 -92,243 -92,244 -92,245 -92,246 -92,248 -92,\
    249 -55,250 -55,251 -55,252 -55,253 -70,255 -70;89:44 -92,45 -74,46 -92,58 -65,59 -65,65 -50,79 -15,97 -92,101 -92,105 -74,111 -92,117 -92,192 -50,\
    193 -50,194 -50,195 -50,196 -50,197 -50,210 -15,211 -15,212 -15,213 -15,214 -15,216 -15,224 -92,225 -92,226 -92,227 -92,228 -92,229 -92,232 -52,\
    233 -92,234 -92,235 -52,236 -34,237 -74,238 -34,239 -34,242 -92,243 -92,244 -92,245 -92,246 -92,248 -92,249 -92,250 -92,251 -92,252 -92;97:103 -10;\
    98:46 -40,117 -20,249 -20,250 -20,251 -20,252 -20;99:104 -15,107 -20;101:44 -10,46 -15,103 -40,118 -15,119 -15,120 -20,121 -30,253 -30,255 -30;\
    102:44 -10,46 -15,102 -18,105 -20,305 -60,8217 92;103:44 -10,46 -15,101 -10,103 -10,232 -10,233 -10,234 -10,235 -10;107:101 -10,111 -10,121 -10,\
    232 -10,233 -10,234 -10,235 -10,242 -10,243 -10,244 -10,245 -10,246 -10,248 -10,253 -10,255 -10;110:118 -40;111:103 -10,118 -10;114:44 -111,45 -20,\
    46 -111,97 -15,99 -37,100 -37,101 -37,103 -37,111 -45,113 -37,115 -10,224 -15,225 -15,226 -15,227 -15,228 -15,229 -15,231 -37,232 -37,233 -37,234 -37,\
    235 -37,242 -45,243 -45,244 -45,245 -45,246 -45,248 -45,353 -10;118:44 -74,46 -74;119:44 -74,46 -74;121:44 -55,46 -55;192:67 -30,71 -35,79 -40,81 -40,\
    84 -37,85 -50,86 -105,87 -95,89 -55,117 -20,118 -55,119 -55,121 -55,199 -30,210 -40,211 -40,212 -40,213 -40,214 -40,216 -40,217 -50,218 -50,219 -50,\
    220 -50,221 -55,249 -20,250 -20,251 -20,252 -20,253 -55,255 -55,376 -55,8217 -37;193:67 -30,71 -35,79 -40,81 -40,84 -37,85 -50,86 -105,87 -95,89 -55,\
    117 -20,118 -55,119 -55,121 -55,199 -30,210 -40,211 -40,212 -40,213 -40,214 -40,216 -40,217 -50,218 -50,219 -50,220 -50,221 -55,249 -20,250 -20,\
    251 -20,252 -20,253 -55,255 -55,376 -55,8217 -37;194:67 -30,71 -35,79 -40,81 -40,84 -37,85 -50,86 -105,87 -95,89 -55,117 -20,118 -55,119 -55,121 -55,\
    199 -30,210 -40,211 -40,212 -40,213 -40,214 -40,216 -40,217 -50,218 -50,219 -50,220 -50,221 -55,249 -20,250 -20,251 -20,252 -20,253 -55,255 -55,\
    376 -55,8217 -37;195:67 -30,71 -35,79 -40,81 -40,84 -37,85 -50,86 -105,87 -95,89 -55,117 -20,118 -55,119 -55,121 -55,199 -30,210 -40,211 -40,212 -40,\
    213 -40,214 -40,216 -40,217 -50,218 -50,219 -50,220 -50,221 -55,249 -20,250 -20,251 -20,252 -20,253 -55,255 -55,376 -55,8217 -37;196:67 -30,71 -35,\
    79 -40,81 -40,84 -37,85 -50,86 -105,87 -95,89 -55,117 -20,118 -55,119 -55,121 -55,199 -30,210 -40,211 -40,212 -40,213 -40,214 -40,216 -40,217 -50,\
    218 -50,219 -50,220 -50,221 -55,249 -20,250 -20,251 -20,252 -20,253 -55,255 -55,376 -55,8217 -37;197:67 -30,71 -35,79 -40,81 -40,84 -37,85 -50,\
    86 -105,87 -95,89 -55,117 -20,118 -55,119 -55,121 -55,199 -30,210 -40,211 -40,212 -40,213 -40,214 -40,216 -40,217 -50,218 -50,219 -50,220 -50,221 -55,\
    249 -20,250 -20,251 -20,252 -20,253 -55,255 -55,376 -55,8217 -37;209:65 -27,192 -27,193 -27,194 -27,195 -27,196 -27,197 -27;210:65 -55,84 -40,86 -50,\
    87 -50,88 -40,89 -50,192 -55,193 -55,194 -55,195 -55,196 -55,197 -55,221 -50,376 -50;211:65 -55,84 -40,86 -50,87 -50,88 -40,89 -50,192 -55,193 -55,\
    194 -55,195 -55,196 -55,197 -55,221 -50,376 -50;212:65 -55,84 -40,86 -50,87 -50,88 -40,89 -50,192 -55,193 -55,194 -55,195 -55,196 -55,197 -55,221 -50,\
    376 -50;213:65 -55,84 -40,86 -50,87 -50,88 -40,89 -50,192 -55,193 -55,194 -55,195 -55,196 -55,197 -55,221 -50,376 -50;214:65 -55,84 -40,86 -50,87 -50,\
    88 -40,89 -50,192 -55,193 -55,194 -55,195 -55,196 -55,197 -55,221 -50,376 -50;216:65 -55,84 -40,86 -50,87 -50,88 -40,89 -50,192 -55,193 -55,194 -55,\
    195 -55,196 -55,197 -55,221 -50,376 -50;217:44 -25,46 -25,65 -40,192 -40,193 -40,194 -40,195 -40,196 -40,197 -40;218:44 -25,46 -25,65 -40,192 -40,\
    193 -40,194 -40,195 -40,196 -40,197 -40;219:44 -25,46 -25,65 -40,192 -40,193 -40,194 -40,195 -40,196 -40,197 -40;220:44 -25,46 -25,65 -40,192 -40,\
    193 -40,194 -40,195 -40,196 -40,197 -40;221:44 -92,45 -74,46 -92,58 -65,59 -65,65 -50,79 -15,97 -92,101 -92,105 -74,111 -92,117 -92,192 -50,193 -50,\
    194 -50,195 -50,196 -50,197 -50,210 -15,211 -15,212 -15,213 -15,214 -15,216 -15,224 -92,225 -92,226 -92,227 -92,228 -92,229 -92,232 -52,233 -92,\
    234 -92,235 -52,236 -34,237 -74,238 -34,239 -34,242 -92,243 -92,244 -92,245 -92,246 -92,248 -92,249 -92,250 -92,251 -92,252 -92;224:103 -10;\
    225:103 -10;226:103 -10;227:103 -10;228:103 -10;229:103 -10;231:104 -15,107 -20;232:44 -10,46 -15,103 -40,118 -15,119 -15,120 -20,121 -30,253 -30,\
    255 -30;233:44 -10,46 -15,103 -40,118 -15,119 -15,120 -20,121 -30,253 -30,255 -30;234:44 -10,46 -15,103 -40,118 -15,119 -15,120 -20,121 -30,253 -30,\
    255 -30;235:44 -10,46 -15,103 -40,118 -15,119 -15,120 -20,121 -30,253 -30,255 -30;241:118 -40;242:103 -10,118 -10;243:103 -10,118 -10;244:103 -10,\
    118 -10;245:103 -10,118 -10;246:103 -10,118 -10;248:103 -10,118 -10;253:44 -55,46 -55;255:44 -55,46 -55;321:84 -20,86 -55,87 -55,89 -20,121 -30,\
    221 -20,253 -30,255 -30,376 -20,8217 -37;376:44 -92,45 -74,46 -92,58 -65,59 -65,65 -50,79 -15,97 -92,101 -92,105 -74,111 -92,117 -92,192 -50,193 -50,\
    194 -50,195 -50,196 -50,197 -50,210 -15,211 -15,212 -15,213 -15,214 -15,216 -15,224 -92,225 -92,226 -92,227 -92,228 -92,229 -92,232 -52,233 -92,\
    234 -92,235 -52,236 -34,237 -74,238 -34,239 -34,242 -92,243 -92,244 -92,245 -92,246 -92,248 -92,249 -92,250 -92,251 -92,252 -92;8216:8216 -111;\
    8217:32 -111,100 -25,114 -25,115 -40,116 -30,118 -10,353 -40,8217 -111"

/-- fonts/builtins.py:9803-10036 (Times-BoldItalic): widths. -/
def timesBoldItalicWidths : List (Nat × Nat) :=
  widths! "32 250,33 389,34 555,35 500,36 500,37 833,38 778,39 278,40 333,41 333,42 500,43 570,44 250,45 333,46 250,47 278,48 500,49 500,50 500,51 500,52 500,\
    53 500,54 500,55 500,56 500,57 500,58 333,59 333,60 570,61 570,62 570,63 500,64 832,65 667,66 667,67 667,68 722,69 667,70 667,71 722,72 778,73 389,\
    74 500,75 667,76 611,77 889,78 722,79 722,80 611,81 722,82 667,83 556,84 611,85 722,86 667,87 889,88 667,89 611,90 611,91 333,92 278,93 333,94 570,\
    95 500,96 333,97 500,98 500,99 444,100 500,101 444,102 333,103 500,104 556,105 278,106 278,107 500,108 278,109 778,110 556,111 500,112 500,113 500,\
    114 389,115 389,116 278,117 556,118 444,119 667,120 500,121 444,122 389,123 348,124 220,125 348,126 570,161 389,162 500,163 500,164 500,165 500,\
    166 220,167 500,169 747,170 266,171 500,172 606,174 747,176 400,177 570,178 300,179 300,182 500,183 250,185 300,186 300,187 500,188 750,189 750,\
    190 750,191 500,192 667,193 667,194 667,195 667,196 667,197 667,198 944,199 667,200 667,201 667,202 667,203 667,204 389,205 389,206 389,207 389,\
    208 722,209 722,210 722,211 722,212 722,213 722,214 722,215 570,216 722,217 722,218 722,219 722,220 722,221 611,222 611,223 500,224 500,225 500,\
    226 500,227 500,228 500,229 500,230 722,231 444,232 444,233 444,234 444,235 444,236 278,237 278,238 278,239 278,240 500,241 556,242 500,243 500,\
    244 500,245 500,246 500,247 570,248 500,249 556,250 556,251 556,252 556,253 444,254 500,255 444,305 278,321 611,322 278,338 944,339 722,352 556,\
    353 389,376 611,381 611,382 389,402 500,710 333,711 333,769 333,771 333,772 333,774 333,775 333,776 333,778 333,779 333,807 333,808 333,956 576,\
    8211 500,8212 1000,8216 333,8217 333,8218 333,8220 500,8221 500,8222 500,8224 500,8225 500,8226 350,8230 1000,8240 1000,8249 333,8250 333,8260 167,\
    8364 500,8482 1000,8722 606,64257 556,64258 556"

/-- fonts/builtins.py:10037-11045 (Times-BoldItalic): kerning pairs. -/
def timesBoldItalicKerning : List (Nat × List (Nat × Int)) :=
  kerning! "32:65 -37,86 -70,87 -70,89 -70,192 -37,193 -37,194 -37,195 -37,196 -37,197 -37,221 -70,376 -70;44:8217 -95,8221 -95;46:8217 -95,8221 -95;65:67 -65,\
    71 -60,79 -50,81 -55,84 -55,85 -50,86 -95,87 -100,89 -70,117 -30,118 -74,119 -74,121 -74,199 -65,210 -50,211 -50,212 -50,213 -50,214 -50,216 -50,\
    217 -50,218 -50,219 -50,220 -50,221 -70,249 -30,250 -30,251 -30,252 -30,253 -74,255 -74,376 -70,8217 -74;66:65 -25,85 -10,192 -25,193 -25,194 -25,\
    195 -25,196 -25,197 -25,217 -10,218 -10,219 -10,220 -10;68:65 -25,86 -50,87 -40,89 -50,192 -25,193 -25,194 -25,195 -25,196 -25,197 -25,221 -50,\
    376 -50;70:44 -129,46 -129,65 -100,97 -95,101 -100,105 -40,111 -70,114 -50,192 -100,193 -100,194 -100,195 -100,196 -100,197 -100,224 -95,225 -95,\
    226 -95,227 -95,228 -95,229 -95,232 -100,233 -100,234 -100,235 -100,236 -40,237 -40,238 -40,239 -40,242 -70,243 -70,244 -70,245 -70,246 -70,248 -70;\
    74:44 -10,46 -10,65 -25,97 -40,101 -40,111 -40,117 -40,192 -25,193 -25,194 -25,195 -25,196 -25,197 -25,224 -40,225 -40,226 -40,227 -40,228 -40,\
    229 -40,232 -40,233 -40,234 -40,235 -40,242 -40,243 -40,244 -40,245 -40,246 -40,248 -40,249 -40,250 -40,251 -40,252 -40;75:79 -30,101 -25,111 -25,\
    117 -20,121 -20,210 -30,211 -30,212 -30,213 -30,214 -30,216 -30,232 -25,233 -25,234 -25,235 -25,242 -25,243 -25,244 -25,245 -25,246 -25,248 -25,\
    249 -20,250 -20,251 -20,252 -20,253 -20,255 -20;76:84 -18,86 -37,87 -37,89 -37,121 -37,221 -37,253 -37,255 -37,376 -37,8217 -55;78:65 -30,192 -30,\
    193 -30,194 -30,195 -30,196 -30,197 -30;79:65 -40,84 -40,86 -50,87 -50,88 -40,89 -50,192 -40,193 -40,194 -40,195 -40,196 -40,197 -40,221 -50,376 -50;\
    80:44 -129,46 -129,65 -85,97 -40,101 -50,111 -55,192 -85,193 -85,194 -85,195 -85,196 -85,197 -85,224 -40,225 -40,226 -40,227 -40,228 -40,229 -40,\
    232 -50,233 -50,234 -50,235 -50,242 -55,243 -55,244 -55,245 -55,246 -55,248 -55;81:85 -10,217 -10,218 -10,219 -10,220 -10;82:79 -40,84 -30,85 -40,\
    86 -18,87 -18,89 -18,210 -40,211 -40,212 -40,213 -40,214 -40,216 -40,217 -40,218 -40,219 -40,220 -40,221 -18,376 -18;84:44 -92,45 -92,46 -92,58 -74,\
    59 -74,65 -55,79 -18,97 -92,101 -92,105 -37,111 -95,114 -37,117 -37,119 -37,121 -37,192 -55,193 -55,194 -55,195 -55,196 -55,197 -55,210 -18,211 -18,\
    212 -18,213 -18,214 -18,216 -18,224 -92,225 -92,226 -92,227 -92,228 -92,229 -92,232 -52,233 -92,234 -92,235 -52,237 -37,242 -95,243 -95,244 -95,\
    245 -95,246 -95,248 -95,249 -37,250 -37,251 -37,252 -37,253 -37,255 -37;85:65 -45,192 -45,193 -45,194 -45,195 -45,196 -45,197 -45;86:44 -129,45 -70,\
    46 -129,58 -74,59 -74,65 -85,71 -10,79 -30,97 -111,101 -111,105 -55,111 -111,117 -55,192 -85,193 -85,194 -85,195 -85,196 -85,197 -85,210 -30,211 -30,\
    212 -30,213 -30,214 -30,216 -30,224 -111,225 -111,226 -111,227 -111,228 -111,229 -111,232 -71,233 -111,234 -111,235 -71,237 -55,242 -111,243 -111,\
    244 -111,245 -111,246 -111,248 -111,249 -55,250 -55,251 -55,252 -55;87:44 -74,45 -50,46 -74,58 -55,59 -55,65 -74,79 -15,97 -85,101 -90,105 -37,\
    111 -80,117 -55,121 -55,192 -74,193 -74,194 -74,195 -74,196 -74,197 -74,210 -15,211 -15,212 -15,213 -15,214 -15,216 -15,224 -85,225 -85,226 -85,\
    227 -85,228 -85,229 -85,232 -50,233 -90,234 -90,235 -50,237 -37,242 -80,243 -80,244 -80,245 -80,246 -80,248 -80,249 -55,250 -55,251 -55,252 -55,\
    253 -55,255 -55;89:44 -92,45 -92,46 -74,58 -92,59 -92,65 -74,79 -25,97 -92,101 -111,105 -55,111 -111,117 -92,192 -74,193 -74,194 -74,195 -74,196 -74,\
    197 -74,210 -25,211 -25,212 -25,213 -25,214 -25,216 -25,224 -92,225 -92,226 -92,227 -92,228 -92,229 -92,232 -71,233 -111,234 -71,235 -71,237 -55,\
    242 -111,243 -111,244 -111,245 -111,246 -111,248 -111,249 -92,250 -92,251 -92,252 -92;98:46 -40,98 -10,117 -20,249 -20,250 -20,251 -20,252 -20;\
    99:104 -10,107 -10;101:98 -10;102:44 -10,46 -10,101 -10,102 -18,111 -10,233 -10,242 -10,243 -10,244 -10,245 -10,248 -10,305 -30,8217 55;107:101 -30,\
    111 -10,232 -30,233 -30,234 -30,235 -30,242 -10,243 -10,244 -10,245 -10,246 -10,248 -10;110:118 -40;111:118 -15,119 -25,120 -10,121 -10,253 -10,\
    255 -10;114:44 -65,46 -65;118:44 -37,46 -37,101 -15,111 -15,232 -15,233 -15,234 -15,235 -15,242 -15,243 -15,244 -15,245 -15,246 -15,248 -15;\
    119:44 -37,46 -37,97 -10,101 -10,111 -15,224 -10,225 -10,226 -10,227 -10,228 -10,229 -10,232 -10,233 -10,234 -10,235 -10,242 -15,243 -15,244 -15,\
    245 -15,246 -15,248 -15;120:101 -10,232 -10,233 -10,234 -10,235 -10;121:44 -37,46 -37;192:67 -65,71 -60,79 -50,81 -55,84 -55,85 -50,86 -95,87 -100,\
    89 -70,117 -30,118 -74,119 -74,121 -74,199 -65,210 -50,211 -50,212 -50,213 -50,214 -50,216 -50,217 -50,218 -50,219 -50,220 -50,221 -70,249 -30,\
    250 -30,251 -30,252 -30,253 -74,255 -74,376 -70,8217 -74;193:67 -65,71 -60,79 -50,81 -55,84 -55,85 -50,86 -95,87 -100,89 -70,117 -30,118 -74,119 -74,\
    121 -74,199 -65,210 -50,211 -50,212 -50,213 -50,214 -50,216 -50,217 -50,218 -50,219 -50,220 -50,221 -70,249 -30,250 -30,251 -30,252 -30,253 -74,\
    255 -74,376 -70,8217 -74;194:67 -65,71 -60,79 -50,81 -55,84 -55,85 -50,86 -95,87 -100,89 -70,117 -30,118 -74,119 -74,121 -74,199 -65,210 -50,211 -50,\
    212 -50,213 -50,214 -50,216 -50,217 -50,218 -50,219 -50,220 -50,221 -70,249 -30,250 -30,251 -30,252 -30,253 -74,255 -74,376 -70,8217 -74;195:67 -65,\
    71 -60,79 -50,81 -55,84 -55,85 -50,86 -95,87 -100,89 -70,117 -30,118 -74,119 -74,121 -74,199 -65,210 -50,211 -50,212 -50,213 -50,214 -50,216 -50,\
    217 -50,218 -50,219 -50,220 -50,221 -70,249 -30,250 -30,251 -30,252 -30,253 -74,255 -74,376 -70,8217 -74;196:67 -65,71 -60,79 -50,81 -55,84 -55,\
    85 -50,86 -95,87 -100,89 -70,117 -30,118 -74,119 -74,121 -74,199 -65,210 -50,211 -50,212 -50,213 -50,214 -50,216 -50,217 -50,218 -50,219 -50,220 -50,\
    221 -70,249 -30,250 -30,251 -30,252 -30,253 -74,255 -74,376 -70,8217 -74;197:67 -65,71 -60,79 -50,81 -55,84 -55,85 -50,86 -95,87 -100,89 -70,117 -30,\
    118 -74,119 -74,121 -74,199 -65,210 -50,211 -50,212 -50,213 -50,214 -50,216 -50,217 -50,218 -50,219 -50,220 -50,221 -70,249 -30,250 -30,251 -30,\
    252 -30,253 -74,255 -74,376 -70,8217 -74;209:65 -30,192 -30,193 -30,194 -30,195 -30,196 -30,197 -30;210:65 -40,84 -40,86 -50,87 -50,88 -40,89 -50,\
    192 -40,193 -40,194 -40,195 -40,196 -40,197 -40,221 -50,376 -50;211:65 -40,84 -40,86 -50,87 -50,88 -40,89 -50,192 -40,193 -40,194 -40,195 -40,196 -40,\
    197 -40,221 -50,376 -50;212:65 -40,84 -40,86 -50,87 -50,88 -40,89 -50,192 -40,193 -40,194 -40,195 -40,196 -40,197 -40,221 -50,376 -50;213:65 -40,\
    84 -40,86 -50,87 -50,88 -40,89 -50,192 -40,193 -40,194 -40,195 -40,196 -40,197 -40,221 -50,376 -50;214:65 -40,84 -40,86 -50,87 -50,88 -40,89 -50,\
    192 -40,193 -40,194 -40,195 -40,196 -40,197 -40,221 -50,376 -50;216:65 -40,84 -40,86 -50,87 -50,88 -40,89 -50,192 -40,193 -40,194 -40,195 -40,196 -40,\
    197 -40,221 -50,376 -50;217:65 -45,192 -45,193 -45,194 -45,195 -45,196 -45,197 -45;218:65 -45,192 -45,193 -45,194 -45,195 -45,196 -45,197 -45;\
    219:65 -45,192 -45,193 -45,194 -45,195 -45,196 -45,197 -45;220:65 -45,192 -45,193 -45,194 -45,195 -45,196 -45,197 -45;221:44 -92,45 -92,46 -74,58 -92,\
    59 -92,65 -74,79 -25,97 -92,101 -111,105 -55,111 -111,117 -92,192 -74,193 -74,194 -74,195 -74,196 -74,197 -74,210 -25,211 -25,212 -25,213 -25,214 -25,\
    216 -25,224 -92,225 -92,226 -92,227 -92,228 -92,229 -92,232 -71,233 -111,234 -71,235 -71,237 -55,242 -111,243 -111,244 -111,245 -111,246 -111,\
    248 -111,249 -92,250 -92,251 -92,252 -92;231:104 -10,107 -10;232:98 -10;233:98 -10;234:98 -10;235:98 -10;241:118 -40;242:118 -15,119 -25,120 -10,\
    121 -10,253 -10,255 -10;243:118 -15,119 -25,120 -10,121 -10,253 -10,255 -10;244:118 -15,119 -25,120 -10,121 -10,253 -10,255 -10;245:118 -15,119 -25,\
    120 -10,121 -10,253 -10,255 -10;246:118 -15,119 -25,120 -10,121 -10,253 -10,255 -10;248:118 -15,119 -25,120 -10,121 -10,253 -10,255 -10;253:44 -37,\
    46 -37;255:44 -37,46 -37;321:84 -18,86 -37,87 -37,89 -37,121 -37,221 -37,253 -37,255 -37,376 -37,8217 -55;376:44 -92,45 -92,46 -74,58 -92,59 -92,\
    65 -74,79 -25,97 -92,101 -111,105 -55,111 -111,117 -92,192 -74,193 -74,194 -74,195 -74,196 -74,197 -74,210 -25,211 -25,212 -25,213 -25,214 -25,\
    216 -25,224 -92,225 -92,226 -92,227 -92,228 -92,229 -92,232 -71,233 -111,234 -71,235 -71,237 -55,242 -111,243 -111,244 -111,245 -111,246 -111,\
    248 -111,249 -92,250 -92,251 -92,252 -92;8216:8216 -74;8217:32 -74,100 -15,114 -15,115 -74,116 -37,118 -15,353 -74,8217 -74"

/-- fonts/builtins.py:18-11068: the metrics of the standard fonts, by name. Courier is 600 wide, Symbol and ZapfDingbats 1000, without kerning (11047-11068). -/
def standardMetrics (f : BuiltinFont) : Metrics :=
  if f.name = b!"Helvetica" then ⟨fun c => dictGet helveticaWidths 556 c, fun p => kernGet helveticaKerning p⟩ else
  if f.name = b!"Helvetica-Oblique" then ⟨fun c => dictGet helveticaWidths 556 c, fun p => kernGet helveticaKerning p⟩ else
  if f.name = b!"Helvetica-Bold" then ⟨fun c => dictGet helveticaBoldWidths 611 c, fun p => kernGet helveticaBoldKerning p⟩ else
  if f.name = b!"Helvetica-BoldOblique" then ⟨fun c => dictGet helveticaBoldWidths 611 c, fun p => kernGet helveticaBoldKerning p⟩ else
  if f.name = b!"Times-Roman" then ⟨fun c => dictGet timesWidths 444 c, fun p => kernGet timesKerning p⟩ else
  if f.name = b!"Times-Bold" then ⟨fun c => dictGet timesBoldWidths 500 c, fun p => kernGet timesBoldKerning p⟩ else
  if f.name = b!"Times-Italic" then ⟨fun c => dictGet timesItalicWidths 500 c, fun p => kernGet timesItalicKerning p⟩ else
  if f.name = b!"Times-BoldItalic" then ⟨fun c => dictGet timesBoldItalicWidths 500 c, fun p => kernGet timesBoldItalicKerning p⟩ else
  if f.name = b!"Symbol" ∨ f.name = b!"ZapfDingbats" then ⟨fun _ => 1000, fun _ => 0⟩ else ⟨fun _ => 600, fun _ => 0⟩

end Pdfje
