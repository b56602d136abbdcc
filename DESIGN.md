# Design: a Lean 4 model of heavyfishdesign

## 1. What is trusted

* Lean 4.33.0's kernel. No theorem uses an axiom other than `propext`, `Classical.choice` and `Quot.sound`
  (all three come with Lean/Mathlib). No axiom of our own, no `sorry`, no `native_decide`, no `bv_decide`.
* The reading of the Go source. Every definition of the model cites file and lines in `/repo`; nothing ties the model
  to the code mechanically apart from the tests below, and the code was not run.
* The definitions under `Verif/Spec/` (what "overlap", "stroke", "point of a curve", ... mean) and the statements in
  `Verif/Props/`. They are meant to be read; the proofs are not.

### A test of the model against the shipped drawings

`validate/Run.lean.txt` runs the model, with machine floats for numbers, on the 66 designs that come with the code (`/repo/designs`), from the text of
the files to the text of the sheets (`Machine.sheets`; comments are removed by `strip`, drawings are read by `Xml.parseSVG`). It supplies what the
model takes from outside: a reader of JSON, a tokenizer of XML, an infix parser for the expressions, `%v`, `%.nf`, and md5 of the indented JSON
text. `validate/compare.py` compares the result with the 96 sheets in `/repo/designs_rendered`, which the authors made with the Go program.
Result: 93 sheets are the same byte for byte. In the other three, 45 numbers differ by one in the third decimal (ties of the rounding; the Go
program ran on other hardware). All 277 ids agree: they are md5 sums of the maps of the components, so the maps built while parsing agree too.
This is a test, not a proof; nothing in `lean/` depends on it. Run it in `lean/`:

    (cd /repo && find designs -name "*.hfd" -o -name "*.svg" | sort) > /tmp/names.txt
    cp ../validate/Run.lean.txt /tmp/Run.lean    # it is kept as a text, since it is no part of the library
    mkdir -p /tmp/made && lake env lean --run /tmp/Run.lean /repo /tmp/made /tmp/names.txt
    python3 ../validate/compare.py /repo/designs_rendered /tmp/made

The same program runs the model on the tests of the package `transforms` that give a path and the expected text (`validate/extract.py` reads them
from the Go files as text). All 35 give the expected text:

    python3 ../validate/extract.py /repo > /tmp/tests.txt && lake env lean --run /tmp/Run.lean tests /tmp/tests.txt

## 2. Numbers

Go's `float64` is modelled by a type class `Arith` (`Verif/Num.lean`): a type with the operations `+. -. *. /.`,
the comparisons `<. <=. ==.` (Boolean, as in Go) and `isNaN`, **without any law**. The model is written once over this
class. Theorems come in three strengths, visible from their binder:

* `[Arith F]` only: the theorem holds for *any* arithmetic, so also for IEEE doubles with rounding, NaN, infinities
  and signed zeros.
* an ordered field `K` (`[Field K] [LinearOrder K] [IsStrictOrderedRing K]`) or `ℝ`: exact arithmetic. Rounding,
  overflow and NaN are **not** modelled there. Examples use `ℚ`, where everything computes.
* `XNum K` (`Verif/NumClass.lean`): exact arithmetic extended with `+Inf`, `-Inf` and `NaN` following IEEE rules (one zero only).
  Used where a division by zero or a square root of a negative number can happen.
* `Double` (`Verif/Double.lean`): IEEE doubles themselves (53 binary digits, rounding to nearest, ties to even, overflow to the infinities, small doubles;
  one zero only). Used through `Rounds`, which says that an arithmetic is the exact one up to an error `ε` in a range up to `M`, and in concrete witnesses, which
  the kernel computes.

Functions that need square roots, trigonometry or decimal formatting use the extended class `Num` (again lawless), with
an instance for `ℝ` given by Mathlib's functions.

The rounding of doubles assumes that every operation is rounded by itself. Go allows fusing `x*y + z` into one rounding on some machines (arm64, ppc64, s390x); on amd64 the
compiler does not. A fused operation has one rounding error less, but is not the same double.

What this leaves out in general: rounding error of doubles outside of packing, curves, transforms, straight drawings and path texts (claims about exact positions hold for exact arithmetic; C124-C128 and C130 are
about rounding),
memory exhaustion, goroutines (the code has none), and I/O.

## 3. Other modelling conventions

* A Go method that mutates its receiver becomes a function returning the new value.
* `(value, error)` results become `Res` (`ok`, `err`, `panic`): index-out-of-range and nil dereference are explicit.
* Unbounded recursion takes fuel; running out of fuel is a distinct outcome, and where the Go code terminates a theorem says
  that enough fuel always exists.
* Slices are lists. Where aliasing between slices matters for a property (the close-path step of join) it is modelled explicitly.
* Go maps are association lists; theorems about them quantify over every ordering, since Go's iteration order is random.
* Interfaces of external packages (XML tokenizer, expression parser, JSON parser) are parameters or their outputs are inputs.

## 4. When the code violates a property

The property keeps its full statement in `properties.jsonl`; the Lean file has (a) a theorem ending in `_false` (or a statement of
the negation) with a concrete witness and (b) a `_partial` theorem saying exactly when the property does hold. The manifest
says `partial` and describes the gap. Such disagreements are listed in section 6.

## 5. Properties: what is modelled and how it is proved

| id | model | method |
|----|-------|--------|
| C01 non-overlap | `BinPacking.lean`: the split tree and `Insert`, `run` over a request list | tree invariant (children partition the parent); induction over the history |
| C02 containment | same | same invariant |
| C03 size | same | induction on the tree, the split keeps one side |
| C04 orientation flag | same, with the `Rotated` field as stored | witness for the negation; partial: correct when no free bin has exactly the object's size |
| C05 atomic, stable | same | induction on the tree; placed objects of the new tree are a permutation of the old ones plus one |
| C06 refuse only if nothing fits | same, with `GetEmptyBins` | induction on the tree |
| C07 area | same, with `GetEmptyArea` | induction, `ring` |
| C08 degenerate | same, lawless arithmetic | induction on the tree |
| C09 padding | `InsertWithPadding` | corollary of C01/C02 by shrinking rectangles |
| C10 no part lost | `PlanSet.lean`: `SVGDocument.Add`, `addPart`, `Init` | invariant: parts on sheets are a permutation of the parts handled so far, each sheet a sublist |
| C11 always placed | same | a fresh sheet accepts every positive size |
| C12 oversized alone | same | invariant on sheets: full root implies one renderable |
| C13 drawn where reserved | `render` transform as an affine map | algebra; negation through C04, partial under a truthful flag |
| C14 connected drawing | `Path.lean`, `Draw.lean` over lawless arithmetic | induction over the command list |
| C15 rectangles, circles | same over an ordered field / `ℝ` | algebra; the circle error factors as `t²(1-t)²(2t-1)²` |
| C16 quadratic | same | witness for the negation; partial |
| C17 print/parse | character-level printer, tokenizer and number parser | induction on digits and tokens |
| C18 parser semantics | token-level parser against a reference interpreter | simulation by induction on the tokens |
| C19 split on moves | `Path/Util` over lawless arithmetic | induction |
| C20 trim | same | induction |
| C21 curve box | `Bezier.lean` over `ℝ`, roots with explicit NaN | extreme value theorem, interior extremum, quadratic formula |
| C22 split curve | same over a field | `ring` |
| C23 evaluation | same | `ring`, `HasDerivAt` |
| C24 line/curve | same, `Roots` with Cardano's formulas | soundness/completeness per branch; `IntersectsLine` partial (maximum taken of the same ordinate twice) |
| C25 nearest | `closest` as written | negation: the result does not depend on the point; partial for the point (0,0) |
| C26 path box | `BoundingBoxTrimWhitespace` | induction on segments, C21 for curves |
| C27 shift | `Transforms/*` | algebra, list induction |
| C28 move handle | same | boxes commute with translation by C26 |
| C29 trim whitespace | same | C26, C27 |
| C30 scale | same | C26 |
| C31 rotate | same over `ℝ` | trigonometric identities |
| C32 mirror | same | C26 |
| C33 reverse | `PathReverse` through `Draw.AddSegment` | induction |
| C34 cleanup | lawless where possible | induction with the previous end as invariant |
| C35 dedup | with `panic` outcome | negation witness; partial for paths starting with a move |
| C36 reorder | greedy loop | permutation invariant |
| C37 pipeline | `MultiTransform` | induction |
| C38 join | `SimpleJoin.JoinPaths` | induction |
| C39 line intersection | over `XNum ℝ` | case analysis on slopes |
| C40 parallel | over `ℝ` | algebra |
| C41 map get/put | `DynMap.lean`: nested association lists | induction on the path |
| C42 failed put | same | induction on the path |
| C43 merge | same | induction on nesting |
| C44 flatten | same | induction on nesting, permutations for iteration order |
| C45 comments | the regular expression as a scanner | negation witness (a URL in a string); partial: texts without `//` and `/*` outside comments |
| C46 lookup | `Params.lean` | structural recursion with the code's own depth limit |
| C47 expressions | abstract syntax instead of the external parser | induction on the counter |
| C48 repeat | `Repeat.lean` | floor arithmetic |
| C49 repeat edge | same | algebra |
| C50 auto split | decision function | case analysis; negation when max height exceeds max width |
| C51 lathe | loop over heights, outline as a function | loop invariant |
| C52 repeats of a part | `RenderPart` | induction |
| C53 logging | logger tree with parent links | negation for grandparents; partial |
| C54 units | conversion factors | `field_simp` |
| C55 file names | decimal printing | injectivity; negation across directories |
| C56 XML decode | token stream parser | induction on trees |
| C57 SVG transforms | `ElementToPath` | negation: the attribute never has an effect |
| C58 custom component | map merge | corollary of C43 |
| C59-C64 curve algorithms | `Bezier.lean`: reduce, offset points, boxes, projection, recursive crossing search | induction on the fuel with the step width as measure; algebra |
| C65 crossings found | same | negation witness; partial for curves that reduce |
| C66 point at distance | `Path.lean` | case analysis on direction |
| C67 offset of curves | `Bezier.lean` | algebra per piece |
| C68, C69 remove, append | `Dynmap.lean` | induction on the path |
| C70 parts draw their children | `Parts.lean`, children as functions | induction over the children with the cursor |
| C71-C75 join | `PathOps.lean`, `Transforms.lean` | invariants of the loops |
| C76 offset of paths | same | the recursion depth is bounded by an explicit measure |
| C77, C78 affine maps | `Transforms.lean` | algebra, complex rotation |
| C79-C81 knife, slice, intercepts | `PathOps.lean` | per line, then induction; termination by counting crossings |
| C82 gear | `Components.lean` | trigonometric identities |
| C83 attributes | `PathOps.lean` | printing/parsing of C17, C26 for boxes |
| C84-C86 around, edge, x-intercept | `Components.lean` | algebra; loop invariants |
| C87-C89 scaling, draw component, svg commands | `DrawComponent.lean`, `DrawCmd.lean` | case analysis over the commands, C78 |
| C90 sorting | `Sort.lean`, the library sort as any permutation without inversions | order theory |
| C91 typed attributes | `Attr.lean` | case analysis; fuel and divergence witness |
| C92 transform factories | `Factory.lean` | case analysis; C37 |
| C93, C94 component trees | `Tree.lean` | induction over trees |
| C95, C96 custom components | `Custom.lean` | induction over maps of any depth |
| C97, C98 documents and imports | `Document.lean` | well-foundedness of the file graph; permutations |
| C99 text of a sheet | `SvgDoc.lean`, against a character-level XML reader in `Spec/SvgDoc.lean` | simulation of the reader over the text; counting tags for the negation |
| C100 import of a sheet | same, `Xml.lean` | C56, C57, C17 |
| C101 place on a sheet | same | words of the attribute; convexity of Bézier curves for the rounding |
| C102 integers in texts | `Typecast.lean` (`strconv.ParseInt` written out), against the grammar of Go literals in `Spec/Typecast.lean` | the loop over underscores as an automaton; induction over digits |
| C103 lists in texts | same | induction over the text |
| C104 maps in URLs | same | leaves of a map (C45), permutations |
| C105 commands | `DrawComponent.lean` | computation; C15 for circles |
| C106 rounded corners | `Draw.lean` | arc tangent; the error polynomial of C15 |
| C107, C108 lists of files, clearing | `FileSystem.lean`, with files as places in a tree in `Spec/FileSystem.lean` | induction over trees; paths resolved by a left fold |
| C109 comparing directories | same | C107 |
| C110 rendering a directory | same | frame invariant of every write; C55 for different names |
| C111 commands and flags | `Main.lean` (package `flag` written out) | induction over arguments; C108, C110 |
| C112 server | same | C43 |
| C113 parsed documents | `Document.lean` | induction over imports and parts |
| C114 documents are read as drawn | `Render.lean`: components with their maps and the variables they leave, parts with their transformers, sheets, texts | one induction over depth with an invariant of maps that survives every variable (`goesWell_render`); C93 for the paths |
| C115 no panic | same | the same induction with another invariant; C94 |
| C116 what a rendering leaves | same | induction over depth with a reflexive and transitive relation on trees and variables |
| C117 sheets and texts | same | C10, C99 |
| C118 outlines, end to end | parsing, rendering and layout are computed; the part is `linesFrom` joined, trimmed and collapsed; `Lemmas/LayoutFin` carries the layout from ℝ to special numbers | C10, C11, C29, C99, C113 |
| C119 components in documents | unfold `render` once per kind; plain children are `Still` (`still_plain` from C116), so the loops that thread components and variables become the loops of the component functions; what a loop sets is overwritten by the next turn (`indexed_again`, `setInter_again`) | C116, C48, C70, C84-C88, C105 |
| C120 parts and transformers | as C119, for the copies of a part, `cutPart`, `splitPart` (induction on fuel) and `latheRows` | C119, C49-C52 |
| C121 sheets of a document | settings by `C91_number` and absence; the loop `plan` and `initLoop` side by side, by induction on the parts | C91, C07-C12 |
| C122 elements by id | the map of elements is the fold of `assign` over the tree, so a lookup is the last component with the id; `strings.Trim` by cases | none |
| C123 comparing elements | mutual induction; equally many attributes under different names, all found on the other side, are a permutation | none |
| C124 rounding | the same functions over any arithmetic with bounded rounding, and `Double` | tree invariant with an error for each split: at most two splits for each insertion; doubles: the relative error of rounding to 53 digits, no underflow in sums | none for packing |
| C125 sheets with rounding | `PlanSet.init` over any arithmetic with bounded rounding | invariant of each sheet, with the tree invariant of C124, carried through the loops of `Init` | none |
| C126 curves with rounding | `Bezier` functions over `Double` | error calculus: value, bound and error of each operation; convexity keeps the bound through subdivision | none; parameters in [0, 1] |
| C127 transforms and units with rounding | `shift`, `scaleBy`, `matrixTransform`, units over `Double` | the same calculus, lifted from control points to all points of a stroke by convexity | none; rotation (sine and cosine) is left out |
| C128 path texts with rounding | `printPath`, `parsePath` over `Double` | C17's tokenisation for finite numbers; decimal and binary rounding bounded separately; a double nearer than half a unit to a decimal prints as that decimal | none; printing and reading of single numbers is the model's (`fmt`, `parse`) |
| C129 functions in expressions | `Functions.lean`, `Params.lean` | which values a function converts, in which order; algebra and the argument of a complex number | the parser and the comma are the library's |
| C130 boxes and places with rounding | `trimmedBox`, `trimWhitespace`, `pointAttribute`, `move` over `Double` | the box is exact because only comparisons occur; bounds of C127 for the shift; the corner is exactly zero because rounding is monotone and `a - a` is zero | none; the functions of package `math` are arbitrary (`MathLib`) |
| C131 scaling by a function | `scaleByFunc`, `isClockwise` in `Bezier.lean` | as C67; the argument of a complex number | none |
| C132 helpers | `Helpers.lean` | induction over lists; bytes of a text and valid UTF-8 from the core library | the time of a message |
| C133 written sheets with rounding | `SvgDoc.lean` over doubles | C128 for the paths, error bounds for the written places, C125 with the flag for turned parts | sign of zero |
| C134 small functions | `Small.lean` | the tree invariant for the flag of a split; induction over lists and maps | none |
| C135 what deduplication removes | `Transforms.lean`; `Spec/Dedup.lean` for pairs that run forth and back | invariant of the list of kept segments; texts of segments determine their printed coordinates | removed pairs leave nothing drawn (§6) |
| C136 what a reader of the files sees | `Render.lean`, `SvgDoc.lean`, `PlanSet.lean`; `Spec/Seen.lean` for readers of whole files | induction over all sheets of a plan set (`Lemmas/SheetInduct.lean`); C101, C114, C118 and C13 put together | distances: no part that exactly fills a bin (C13) |
| C137 the same with doubles | `Render.lean`, `SvgDoc.lean`, `PlanSet.lean` over doubles; `Spec/NearShapes.lean` | drawing is exact, trimming moves by C130 (and the second time by nothing), rounding is monotone (`Lemmas/RndMono.lean`), C133 for the sheets | sign of zero; distances: no part that exactly fills a bin (C13) |
| C138 relative drawings move with their first point | `Draw.lean` | invariant over the two runs: strokes, pen and last control point moved by the same vector | quadratic curves (C16), rounded corners (C106) |
| C139 what a reader sees of drawings with all commands of the pen | `Render.lean`, `Draw.lean`, `DrawComponent.lean`, `SvgDoc.lean`, `PlanSet.lean`; `Spec/Sketch.lean` for the pen | induction over the commands with the place of the pen and the last control point; boxes by C29; then as C136 | distances: no part that exactly fills a bin (C13); rounded corners, svg texts |
| C140 what a reader sees of any finitely rendered document | `Render.lean`, `SvgDoc.lean`, `PlanSet.lean`; `Spec/SeenPart.lean` | a predicate on the global variables kept by all the parts; C101, C114, C117 and C13 put together; induction over the copies | `C140_seen`: no join, offset, slice; `C140_seen_drawn`: any, if the parts are read back as drawn; lathes only; distances as C13 |
| C141 labels and copies | as C139, with `labelOf` and `partCopies`; `Spec/Tiles.lean` | every label attribute looked up through the part and the document; C140 with the predicate "no global variables" | label texts that name nothing in the document |
| C142 numbers as expressions | as C141, with `evalText`, `attrLookup` and `Chain.lookup`; `Spec/Formula.lean` | a value that is found with the parameters alone is found with more names (induction on the fuel); every chain of elements of such a document answers like its parameters; each number is read as its worth from some fuel on; the plan of two documents with the same parts is the same | parameters that are named unlike the attributes, any parser and operators |
| C143 joining a line and a curve | `joinSegments`, `joinLineAndCurve`, `joinCurveAndLine`, `nearest`, `paramOf`, `splitSegment`; `Spec/Meeting.lean` | the candidates are the roots of C24 without bound on the line; the nearest is a minimum over a list; the kept part is the split of C22 at the parameter of the point | lines with two different ends, curves generic for the line |
| C144 knife and curve | `knifeCut`, `intersect`, `splitSegment`; `Spec/Meeting.lean` | induction on the fuel: the pieces of a part of the curve are pieces of the curve (`retraces_trans`). Ends: every cut shortens the parameter range by a factor, because a cut near an end is refused by rounding to seven decimals; a curve whose distance to the knife varies by less than 10^-6 has no roots | knives with two different ends |
| C145 horizontal cut with curves | `hSlice`, `sliceBelow`, `knifeCut`, `whitespaceBox`, `cleanup`; `Spec/SliceCurve.lean` | C144 for each curve and C79 for each line; the filter is decided by the control points (a curve is in their hull) or by the exact box of C62 | drawings with control points below 2^63 |
| C146 crossings of two strokes | `intersect`, `lineLinePoints`, `curveLinePoints`, `pointAt`; `Spec/Crossing.lean` | C39 and the boxes for lines, C24 for a line and a curve, C64 for two curves | strokes with different ends |
| C147 intercepts with curves | `horizontalIntercepts`, `intersect`, `sortByX`, `whitespaceBox`; `Spec/Crossing.lean` | the knife is horizontal, so the distance to it is the difference of ordinates, whatever its width; C24 is complete for knives that are not drawn downwards | drawings with curves that start below 2^63 |
| C148 offset of a rectangle | `offsetPath`, `offsetSegments`, `rebuild`, `dedup`, `reorder`, `joinLoop`, `closePath`; `Spec/OffsetRect.lean` | invariant of the join loop: in suitable coordinates the joined part is the first sides of the moved rectangle; when both ends are turned round the coordinates are exchanged or mirrored; corners by C39; the size by the box of the two rectangles | the distance above the precisions, the sides longer than twice the distance |
| C149 plates | as C140, with `TransformMap.make` and `offsetPath`; `Spec/Piece.lean`, `Spec/Plate.lean` | generic documents of pieces (`Lemmas/Piece.lean`): whatever the components of the parts draw, if they draw finite paths read as drawn; the offset of each plate by C148; the attributes looked up along three elements | straight lines from the origin in one line; default precision; distances as C13 |
| C150 scenes | as C149, with `renderGroup` and the transforms matrix, scale, rotate, move; `Spec/Scene.lean` | mutual induction over the tree: every scene renders to a path with its strokes and its end from any start, in any elements that define nothing; attributes looked up along chains of any length | handles at the origin; depth up to the fuel; groups not empty |
| C151 finger joints | `repeatEdge`, `repeatRender`, `drawRender`, `whitespaceBox` with the pieces of designs/joints/finger_joint_{plug,socket,holes}.hfd; `Spec/Joint.lean` | a path that runs from the origin to its width is measured with this width; so is a repeat of it, by following head and end through `appendPath`; then C49; the outline is a comb, cell by cell; along is injective |
| C152 joining with the pen lifted | `join`, `dedup` on any path with moves between the strokes; `repeatEdge` of the finger joints | the first pass of `dedup` leaves at most one move between two strokes, and it ends where the stroke ended; the second pass takes it away; what is left is the path of C72; the comb of C151 has no two strokes whose ends print the same |
| C153 boards with finger joints, seen in the files | the whole of `Machine.sheets` on documents of `repeat_edge` components with the literal keys and expressions of the shipped designs | the pieces see the parameters of the joint through the chain (C46); their commands do what the commands of C151 do; C119 turns the rendering into `repeatEdge`, C152 gives the comb after `join`; `pieces_seen` carries it to the files |
| C154 a drawing has its size on paper | `Svg.newPage`, `abbreviation`, `Machine.pageOf`, `Machine.sheets` | a sheet that is seen (C140) has the three attributes of `newPage`; the texts are read as CSS lengths and as a box with `toFloat`, and the units of CSS give the same length for one unit of the box; the word of the document decides the units (C121) |
| C155 panels: drawings, joints, rows of holes, gears, tab joints, straight edges and screw holes mixed | the whole of `Machine.sheets` on documents of `draw`, `group`, `gear`, `basic_edge` and `repeat_edge` components, the last two with the literal keys and expressions of the shipped designs | the pieces of a row see its parameters through the chain (C46), their commands do what those of C151 do, C119 turns the rendering into `repeatEdge`; every item starts with a move, so that the cursor handed on does not matter; `pieces_seen` as for C153 |
| C156 gears in documents | `Machine.gearSize`, `renderGear`, `World.make` on the literal keys of a gear | each attribute is found or nowhere defined, so that the default is taken (C46, C91); the outline is that of C82, which is inside the outer circle |
| C157 tab joints | `basicEdge`, `drawRender`, `Machine.renderBasicEdge`, `Source.point` on points that are texts, with the literal keys and expressions of the shipped designs | the width that the edge sets on its element is seen by its child (C46), each text splits at its comma into two expressions, C119 turns the rendering into `basicEdge`, C85 lays it along the line; the outline is a comb with one tooth (C151) |
| C158 straight edges, and outlines of them | `basicEdge`, `drawRender`, `Machine.renderBasicEdge`, `Machine.renderPart`, the whole of `Machine.sheets` on documents of `basic_edge` components with the literal keys of the shipped design `line` | C85 lays the flat line along the edge, C119 turns the rendering into `basicEdge`; by induction over the corners, the end of the path so far is the corner at which the next edge starts, whose own start is not given; `piece_sheets` carries the outlines into the files |
| C159 screw holes | `Path.circle`, `drawRender`, `Machine.render`, `Source.point` and `Source.number` on expressions, the whole of `Machine.sheets` on documents of `draw` components with the literal keys and expressions of the shipped designs | the parameters are seen by the commands (C46), each command does what the pen does (C139); a curve stays in the box of its control points, and the ends of the quarters touch its four sides; roundness is C15 |
| C160 svg edges | `svgRotateScaleTo`, `rotateScale`, `basicEdge`, `Machine.render`, `Source.point`, `Source.string` and `Source.flag` on expressions and texts, the whole of `Machine.sheets` on documents of `basic_edge` components with the literal keys of the shipped design | the command is C89, the edge is C85; the similarity onto the segment from the origin to (length, 0) followed by the rigid map of the edge is the similarity onto the edge; the attribute `svg` of the command names the parameter of the edge (C46); its text begins with `M` and is none of the names in reach, so that it stands for itself |
| C161 rectangles | `rect`, `drawRender`, `Machine.render`, `Source.number`, `attrLookup` on an attribute that has the name of its parameter, the whole of `Machine.sheets` on documents of `draw` components with the literal keys of the shipped design | an attribute whose text is its own name is looked up on the element (C46); the rectangle is C15, and its last side ends where it began |
| C162 the hole in the middle | `move` with a handle, `TransformMap.make`, `handleTransforms`, `finish`, `rect`, `drawRender` | C28 puts the middle of the box on the target, so the margins are equal; the box of a rectangle is its corners and a box is unique, which gives the place of the hole; the transform is made from its attributes by the factory |

The files of `Verif/Model` can be read on their own: most functions take what they need as arguments (`Tree.lean`, for example, is given the attributes of its
components as functions of the variables). `Render.lean` puts all of them together into one function from the map of a document to the texts of its sheets
(`Machine.sheets`), in which nothing is left open but the libraries, the files and `int(f)`.

### Which code is modelled

| file | modelled | not modelled |
|------|----------|--------------|
| binpacking/*.go | all | |
| path/*.go | all segments, drawing, parsing, printing, attributes, boxes, trimming | `Measure`-style debugging output |
| bezier/*.go | evaluation, derivative, normal, split, reduce, roots, extrema, boxes, projection, crossings, offset, scale | `String` |
| transforms/*.go | all transforms | |
| components/*.go | around, basic edge, repeat edge, gear, xintercept, lathe | |
| dom/*.go | parts, groups, repeats, draw components, parameter lookup and expressions, typed attributes, custom components, documents, imports, transform factories, plan set, SVG writing, units | the JSON text of `ToJSON`, the RNG ids (`ids` are inputs) |
| dynmap/*.go | maps, merge, clone, remove, slices, flatten, sorting, typecasts, splitting, URL encoding | reflection on structs, dates |
| parser/*.go | comment removal, XML to elements, SVG shapes | |
| util/*.go, main.go | logging, file names, lists of files, comparing, all commands, flags, the handler of requests | the texts of messages, `net/http` but for one rule about headers |

Libraries that are trusted, and how they enter: `encoding/json` (the parsed map is the input), `govaluate` (abstract syntax with its
own evaluator, or an arbitrary function), `encoding/xml` (a token list; for C99/C100 the reader in `Spec/SvgDoc.lean`),
`strconv`/`fmt` (decimal printing and parsing are modelled digit by digit in `Verif/Decimal.lean`), `sort.Sort` (any permutation
without inversions), `math` (Mathlib's real functions), `path/filepath` (as text operations; `Walk` over a tree), `os` (a tree of files and directories without links; `..` is resolved in the text; contents are texts; a directory may be without permission, other refusals of the system are not modelled), `diffmatchpatch` (any function whose pieces make up the two texts and are all equal if the texts are), `flag` (written out), `net/url` (`Encode` and `ParseQuery` are inverse to each other up to order).
An `int` has 64 bits.

## 6. Disagreements between code and property

Each is a theorem; the names are in `MANIFEST.json`. Behaviour outside the quantified range of a property, or against its wording:

| id | what happens |
|----|----|
| C04 | An object that exactly fills a free bin is returned with the stale `Rotated` flag of that bin. |
| C13 | So a part can be drawn turned outside its reserved place. |
| C16 | The quadratic curve command computes an ordinate from the abscissa of the current point. |
| C18 | `Mxyz` is read as `M`; `Z` draws nothing; a minus sign does not separate numbers. |
| C22 | Splitting at 0, or an empty section, does not give the documented pieces. |
| C24 | The maximum of an ordinate is taken with itself, so a downward line misses crossings with a curve. |
| C25 | `closest` never uses the point that is asked for. |
| C30 | Scaling a flat drawing to a size gives NaN. |
| C32 | Moves at the end of a drawing may leave the box in which it is mirrored. |
| C35 | Deduplication panics on a path that begins with a stroke and its reverse. |
| C135 | Deduplication removes both copies of a stroke that is drawn forth and back, so that nothing is drawn there any more. |
| C38 | A path without a leading move loses its first stroke when it is joined to another. |
| C39 | Lines that are vertical only to the working precision give wrong intersections. |
| C41, C68 | A literal key with dots hides the dotted path; after removing it the path is found again. |
| C43, C44 | Merging keys with dots and flattening lists or empty maps lose information. |
| C45 | `//` inside a string is taken for a comment; a comment on the last line stays. |
| C46 | A text that happens to be a parameter's name is replaced by it. |
| C47, C91 | Parameters and attributes that refer to themselves through functions are evaluated for ever; more than twenty references fail. |
| C48 | A maximum of zero or less still draws one copy. |
| C50 | When the maximum height exceeds the maximum width a part is declared to fit and does not. |
| C52 | Labels of repeated parts count from zero. |
| C53 | Grandparents do not see messages; a fatal message is not an error. |
| C55 | Designs with the same base name in different directories overwrite each other. |
| C56 | Only the last text of an element is kept; malformed XML panics. |
| C57 | The `transform` attribute of an imported element never has an effect. Looking at the variable `t` instead of the letter would not be enough: the pattern wants the arguments at the end of the text, but the last transform keeps its closing parenthesis (`C57_last`), and signs and points are not among the characters of arguments. |
| C63 | At the ends of a curve, projection exchanges distance and parameter. |
| C65 | A curve whose first control point is its start is never reported to cross anything. |
| C66 | The point at a distance along a line that goes left lies on the other side of its start. |
| C67 | A straight curve has no offset; normals that meet in an end lose the direction; after `normalize` the first control point may still be the start, as for (0,0), (0,0), (1,0), (-27,0). |
| C71-C75 | Joining panics without a leading move; retraced strokes vanish; parallel lines stay apart. |
| C80, C81 | Crossings left of zero are ignored. |
| C82 | The code writes 3.142 for pi. |
| C83 | `$START_POINT.X` is the whole point. |
| C84 | All copies around are told index 0; the centre is rounded; a negative number panics. |
| C86 | Errors of the outline and the component are lost; a negative spacing never ends. |
| C87, C89 | Scaling never turns a drawing around, and may collapse it or give infinities. |
| C90 | Truth values are compared by something that is not an order; fractions are cut off. |
| C92 | The reorder transform is not registered. |
| C93 | A gear without teeth begins with a line and no move. |
| C94 | Groups and edges without components, a negative number around, intercepts with a lost error and a slice above everything panic. |
| C95-C98 | A custom component of its own type, and files that lead back to themselves, are followed for ever; repeat components forget the resolved map; same names depend on Go's map order; same ids get lost. |
| C99 | Texts are not escaped; a label without a place leaves the group of its part open; a copy of a sheet has no style for its labels. |
| C100 | Importing a sheet with a label, or an empty sheet, panics. |
| C102 | Integers are read with base 0: `010` is 8. |
| C104 | A list in a URL gets its own printed text as one more element. |
| C106 | A rounded corner whose second leg slants has a wrong curve, always. |
| C107 | `RelFileList` of `./d` keeps the directory; `DirectoryList` lists files and no directory. |
| C108 | The extension is only the end of the name: clearing `svg` removes `oldsvg`. |
| C109 | `diff_test` counts no missing file and does not look at files that are only in the new directory. |
| C110, C111 | `render_all` without `-output_dir` does nothing; flags after the file of `render` are ignored, before it they are taken for the file; `render` alone panics. |
| C112 | A sheet that does not exist panics; a failure is an empty answer with status 200; the value of `save_file` is ignored; the content type is set too late. |
| C115 | A gear or an edge with a variable name below a part in a group, a repeat or another part panics (the parent of the part is taken for a document). |
| C122 | A component whose id begins or ends with `@` is never found; of parts with the same id `FindPartByID` finds the first, `FindElementByID` the last. |
| C124 | With doubles objects overlap and stick out of the sheet by rounding errors (three objects on the default sheet are enough). |
| C129 | `sqrt()` panics, and so does `sqrt(x)` when `x` is null or an empty list. |
| C131 | `ScaleByFunc` does not keep the direction at the ends, as its comment says it does. |
| C132 | `StringElipses` panics for limits below three (the only caller passes ten), and may cut a character in half. |
| C143 | A line that meets a following curve at the far end of the curve is drawn to that end, and then the whole curve from its start. |
| C151 | A repeat edge whose paddings leave no room at all is drawn with one copy (a maximum that is not positive means no maximum), which may stick out of the edge; with a little room it is an error. |
| (no claim) | `BasicComponent.Measure` (dom/models.go:271-286) calls `Render` of the embedded struct, which is not implemented, so it always returns an error. |
| (no claim) | designs/joints/tab_joint_socket.hfd:14 declares the custom component `tab_joint_plug`, the name of the plug; no file declares `tab_joint_socket`. C157 is about the commands of the two files. |
