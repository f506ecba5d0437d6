import Verif.Basic
import Verif.Model.Atoms
import Verif.Model.Builtins
import Verif.Model.Descriptor
import Verif.Model.Document
import Verif.Model.Embed
import Verif.Model.English
import Verif.Model.FirstFit
import Verif.Model.Fonts
import Verif.Model.Hyphenate
import Verif.Model.KnuthPlass
import Verif.Model.Num
import Verif.Model.Ops
import Verif.Model.Optimum
import Verif.Model.Pages
import Verif.Model.Parse
import Verif.Model.Render
import Verif.Model.Resources
import Verif.Model.Sources
import Verif.Model.Style
import Verif.Model.TrueType
import Verif.Model.Units
import Verif.Model.Words
import Verif.Proofs.Across
import Verif.Proofs.Alike
import Verif.Proofs.Bare
import Verif.Proofs.Breaks
import Verif.Proofs.Broken
import Verif.Proofs.Built
import Verif.Proofs.Chars
import Verif.Proofs.Content
import Verif.Proofs.Crash
import Verif.Proofs.Cut
import Verif.Proofs.Decorated
import Verif.Proofs.Display
import Verif.Proofs.DocRead
import Verif.Proofs.Document
import Verif.Proofs.File
import Verif.Proofs.FirstFit
import Verif.Proofs.FirstLine
import Verif.Proofs.Fixed
import Verif.Proofs.Fonts
import Verif.Proofs.FragGaps
import Verif.Proofs.Frags
import Verif.Proofs.Fresh
import Verif.Proofs.Gaps
import Verif.Proofs.Greedy
import Verif.Proofs.Hyphenate
import Verif.Proofs.Indent
import Verif.Proofs.IndentGaps
import Verif.Proofs.Indented
import Verif.Proofs.Isolated
import Verif.Proofs.IsolatedPages
import Verif.Proofs.IsolatedStyle
import Verif.Proofs.Joints
import Verif.Proofs.Kerning
import Verif.Proofs.KnownFonts
import Verif.Proofs.KnownPages
import Verif.Proofs.Layout
import Verif.Proofs.Liang
import Verif.Proofs.Measured
import Verif.Proofs.Mixed
import Verif.Proofs.Newlines
import Verif.Proofs.Num
import Verif.Proofs.NumRange
import Verif.Proofs.Objects
import Verif.Proofs.OptLines
import Verif.Proofs.OptShape
import Verif.Proofs.Optimal
import Verif.Proofs.Pages
import Verif.Proofs.Paragraph
import Verif.Proofs.Parse
import Verif.Proofs.ParseGaps
import Verif.Proofs.Placed
import Verif.Proofs.Reach
import Verif.Proofs.ReadPages
import Verif.Proofs.Registry
import Verif.Proofs.Rescaled
import Verif.Proofs.RescaledLines
import Verif.Proofs.RescaledPages
import Verif.Proofs.RescaledShape
import Verif.Proofs.RescaledWords
import Verif.Proofs.Shape
import Verif.Proofs.ShapeEnds
import Verif.Proofs.Sizes
import Verif.Proofs.Strings
import Verif.Proofs.Style
import Verif.Proofs.Tame
import Verif.Proofs.Text
import Verif.Proofs.TextLines
import Verif.Proofs.Tight
import Verif.Proofs.TightLines
import Verif.Proofs.TightShown
import Verif.Proofs.WordGaps
import Verif.Proofs.Words
import Verif.Proofs.Written
import Verif.Props.Across
import Verif.Props.Append
import Verif.Props.Atoms
import Verif.Props.Blocks
import Verif.Props.Columns
import Verif.Props.Content
import Verif.Props.Decorated
import Verif.Props.Descriptor
import Verif.Props.Document
import Verif.Props.Draw
import Verif.Props.EndToEnd
import Verif.Props.Fewest
import Verif.Props.FirstFit
import Verif.Props.Flow
import Verif.Props.Fonts
import Verif.Props.Framed
import Verif.Props.Header
import Verif.Props.Indent
import Verif.Props.Isolated
import Verif.Props.Joints
import Verif.Props.Kerning
import Verif.Props.KnuthPlass
import Verif.Props.Liang
import Verif.Props.Measure
import Verif.Props.Mixed
import Verif.Props.Moved
import Verif.Props.Newlines
import Verif.Props.Online
import Verif.Props.Optimum
import Verif.Props.Orphans
import Verif.Props.Pages
import Verif.Props.Painted
import Verif.Props.Paragraph
import Verif.Props.Penalties
import Verif.Props.Placed
import Verif.Props.Rescaled
import Verif.Props.Sets
import Verif.Props.SetsText
import Verif.Props.Sources
import Verif.Props.Standard
import Verif.Props.Strings
import Verif.Props.Style
import Verif.Props.Text
import Verif.Props.Tight
import Verif.Props.Unicode
import Verif.Props.Units
import Verif.Props.Unwrapped
import Verif.Props.Widths
import Verif.Props.Words
import Verif.Props.Wrapped
import Verif.Props.Written
import Verif.Spec.Across
import Verif.Spec.Breaks
import Verif.Spec.Color
import Verif.Spec.Columns
import Verif.Spec.Content
import Verif.Spec.Decorated
import Verif.Spec.Denotes
import Verif.Spec.Descriptor
import Verif.Spec.Extract
import Verif.Spec.Fewest
import Verif.Spec.Flow
import Verif.Spec.FontSpec
import Verif.Spec.Framed
import Verif.Spec.Glyphs
import Verif.Spec.Grammar
import Verif.Spec.Header
import Verif.Spec.Indent
import Verif.Spec.Isolated
import Verif.Spec.Joints
import Verif.Spec.Kerned
import Verif.Spec.Liang
import Verif.Spec.Lines
import Verif.Spec.Lookup
import Verif.Spec.Moved
import Verif.Spec.Newlines
import Verif.Spec.Online
import Verif.Spec.OpenType
import Verif.Spec.Orphans
import Verif.Spec.Paper
import Verif.Spec.Paragraph
import Verif.Spec.Paths
import Verif.Spec.PdfReader
import Verif.Spec.Penalties
import Verif.Spec.Placed
import Verif.Spec.Refs
import Verif.Spec.Rescaled
import Verif.Spec.Sets
import Verif.Spec.Sources
import Verif.Spec.Standard
import Verif.Spec.Stands
import Verif.Spec.Styled
import Verif.Spec.Tape
import Verif.Spec.Text
import Verif.Spec.Tight
import Verif.Spec.Unwrapped
import Verif.Spec.Viewer
import Verif.Spec.Words
import Verif.Spec.Written
