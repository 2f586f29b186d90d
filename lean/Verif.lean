import Verif.Props.TextParse
import Verif.Props.TextItem
import Verif.Props.TextLines
import Verif.Props.Merge
import Verif.Props.Code
import Verif.Props.TrimIndent
import Verif.Props.Show
import Verif.Props.Layout
import Verif.Props.LayoutStrings
import Verif.Props.Draw
import Verif.Props.Slide
import Verif.Props.Style
import Verif.Props.Deck
import Verif.Props.Xml
import Verif.Props.DrawStyle
import Verif.Props.Image
import Verif.Props.Ora
import Verif.Props.Shapes
import Verif.Props.CairoPage
import Verif.Props.Arrow
import Verif.Props.PathArrow
import Verif.Props.CacheThreads
import Verif.Props.Cache
import Verif.Props.Queries
import Verif.Props.ExtList
import Verif.Props.Markdown
import Verif.Props.Inkscape
import Verif.Props.SvgUtils
import Verif.Props.Jupyter
import Verif.Props.SvgDraw
import Verif.Props.Backends
import Verif.Props.TextCalls
import Verif.Props.SlideCalls
import Verif.Props.SlideLayout
import Verif.Props.Policy
import Verif.Props.TextQuery
import Verif.Props.Independent
import Verif.Props.Sizes
import Verif.Props.History
import Verif.Props.Scene
import Verif.Props.SceneRoom
import Verif.Props.SceneCairo
import Verif.Props.Growth
import Verif.Props.Scale
import Verif.Props.Flip
import Verif.Props.WholeSlide
import Verif.Props.Book
import Verif.Props.Grid
import Verif.Props.Output
import Verif.Props.Pptx
import Verif.Props.MarkdownBlocks
import Verif.Props.LineBox
import Verif.Props.StyleCheck
import Verif.Props.Debug
import Verif.Props.MarkdownStyles
import Verif.Props.Calls
import Verif.Props.ImageFile
import Verif.Props.Latex
import Verif.Props.Session
import Verif.Props.Notebook
import Verif.Props.Theme
import Verif.Props.CodeStyles
import Verif.Props.CairoInline
import Verif.Props.Chars
import Verif.Props.Zoom
import Verif.Props.StyleUpdate
import Verif.Props.Colors
import Verif.Props.Postprocess
import Verif.Props.Markers
import Verif.Props.Need
import Verif.Props.CodeStep
import Verif.Props.Grids
import Verif.Props.Headers
import Verif.Props.Todo
import Verif.Props.Accept
import Verif.Props.Recipes
import Verif.Props.Reveal
import Verif.Props.Delegate
import Verif.Props.CodeSections
