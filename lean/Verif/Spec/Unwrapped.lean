import Verif.Model.Pages
/-
SPECIFICATION: spans that set nothing.
-/

namespace Pdfje

/-- The second content is the first one with a span replaced by what is in it. The span, which may be in other spans, has a style that sets nothing but what is set already: `base` is the style around
the content, `base.or style` the style in a span with this style. -/
inductive Unwrapped : StyleFull → List Item → List Item → Prop
  | here {base : StyleFull} {style : Style} (h : base.or style = base) (content after : List Item) : Unwrapped base (.span content style :: after) (content ++ after)
  | later {base : StyleFull} (i : Item) {a b : List Item} (h : Unwrapped base a b) : Unwrapped base (i :: a) (i :: b)
  | inSpan {base : StyleFull} {style : Style} {a b : List Item} (h : Unwrapped (base.or style) a b) (after : List Item) : Unwrapped base (.span a style :: after) (.span b style :: after)

end Pdfje
