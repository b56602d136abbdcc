{"id": "C01", "title": "Placed objects never overlap", "statement": "After any sequence of Insert calls on a packing container, the rectangles occupied by two different accepted objects have disjoint interiors.", "quantifier": "every container size, every finite sequence of objects of any sizes (accepted or rejected), every pair of accepted objects", "why_tests_cant": "overlap depends on the whole history of splits; tests pack one or two hand-picked lists", "anchors": ["binpacking/binpacking.go: Container.Insert, Bin.Insert"]}
{"id": "C02", "title": "Placed objects stay inside the container", "statement": "Every accepted object's rectangle lies entirely inside the container's rectangle.", "quantifier": "every container size and every finite sequence of inserts", "why_tests_cant": "the tests look at the result of a few inserts, not at every reachable tree", "anchors": ["binpacking/binpacking.go: Container.Insert, Bin.Insert, NewContainer"]}
{"id": "C03", "title": "An accepted object gets exactly its own size, turned only if it has to be", "statement": "The rectangle given to an accepted object measures exactly width by height, or height by width; it is turned only when it did not fit upright in the free bin that was used.", "quantifier": "every container, history and object size", "why_tests_cant": "orientation interacts with the recursive splits; no finite table of sizes covers it", "anchors": ["binpacking/binpacking.go: Bin.Insert"]}
{"id": "C04", "title": "The reported orientation is the real one", "statement": "The bin returned for an accepted object says Rotated exactly when the object was placed turned by a quarter turn.", "quantifier": "every container, history and object with different width and height", "why_tests_cant": "the flag is only wrong after particular histories (exact fit in a bin that already existed)", "anchors": ["binpacking/binpacking.go: Bin.Insert, Bin.Rotated", "dom/svg_renderer.go: docRenderable.render"]}
{"id": "C05", "title": "Insertion is atomic and stable", "statement": "A rejected insert leaves the container exactly as it was; an accepted insert keeps every earlier object in its place and adds exactly one.", "quantifier": "every container, history and object", "why_tests_cant": "requires comparing all states before and after, including partially split trees", "anchors": ["binpacking/binpacking.go: Container.Insert, Bin.Insert"]}
{"id": "C06", "title": "Insert refuses only when nothing fits", "statement": "Insert refuses an object with non-zero, non-NaN sides exactly when no free bin is large enough for it in either orientation.", "quantifier": "every container, history and object", "why_tests_cant": "completeness over all free bins of all reachable trees", "anchors": ["binpacking/binpacking.go: Bin.Insert, Container.GetEmptyBins"]}
{"id": "C07", "title": "Area is conserved", "statement": "Free area plus the area of the placed objects always equals the area of the container.", "quantifier": "every container and every finite sequence of inserts", "why_tests_cant": "conservation is a statement about all histories", "anchors": ["binpacking/binpacking.go: Container.GetEmptyArea, Bin.Insert"]}
{"id": "C08", "title": "Degenerate objects are refused", "statement": "An object with a zero or NaN side is never placed and never changes the container.", "quantifier": "every container and history, every object with such a side, whatever the arithmetic does elsewhere", "why_tests_cant": "NaN compares unlike any other number; tests never feed it", "anchors": ["binpacking/binpacking.go: Bin.Insert"]}
{"id": "C09", "title": "Padding is honoured", "statement": "Objects placed with padding p keep at least p to the container edge and at least p+q to any other object placed with padding q.", "quantifier": "every container, every sequence of padded inserts with non-negative paddings", "why_tests_cant": "a distance between all pairs in all layouts", "anchors": ["binpacking/binpacking.go: Container.InsertWithPadding"]}
{"id": "C10", "title": "No part is lost or duplicated between sheets", "statement": "When a plan set initialises without error, every rendered part is on exactly one sheet, exactly once, and each sheet lists its parts in their original order.", "quantifier": "every list of rendered parts of any sizes and every sheet size and padding", "why_tests_cant": "first-fit over a growing list of sheets; sampling cannot show that no list loses a part", "anchors": ["dom/planset.go: PlanSet.Init, PlanSet.addPart", "dom/svg_renderer.go: SVGDocument.Add"]}
{"id": "C11", "title": "A part with positive size can always be placed", "statement": "Initialising a plan set fails only if some rendered part has a side that is zero, negative or NaN (or a part failed to render); it never fails because a part is too large.", "quantifier": "every list of parts and every sheet size", "why_tests_cant": "the failure message 'unable to add part' exists in the code; that it is unreachable is a statement about all states", "anchors": ["dom/planset.go: PlanSet.Init, PlanSet.addPart", "dom/svg_renderer.go: SVGDocument.Add"]}
{"id": "C12", "title": "An oversized part gets a sheet of its own", "statement": "A part that does not fit an empty sheet is the only part on its sheet, at position (0,0), and no part is ever added next to it.", "quantifier": "every list of parts and every sheet size", "why_tests_cant": "depends on every later insertion being refused", "anchors": ["dom/svg_renderer.go: SVGDocument.Add", "binpacking/binpacking.go: NewSingleObjectContainer"]}
{"id": "C13", "title": "A part is drawn exactly where its place was reserved", "statement": "The SVG transform written for a part maps the part's box exactly onto the rectangle that was reserved for it on the sheet.", "quantifier": "every part size, position, and orientation", "why_tests_cant": "needs the composition of rotation and translation for all sizes, combined with every packing history", "anchors": ["dom/svg_renderer.go: docRenderable.render, SVGDocument.Add"]}
{"id": "C14", "title": "Drawing commands always give a connected path", "statement": "Whatever drawing commands are issued, each segment of the path starts where the previous one ended, the first one starts at the origin, and the current position is the end of the last segment.", "quantifier": "every finite sequence of drawing commands with any arguments", "why_tests_cant": "unbounded command sequences; a break only shows after particular combinations", "anchors": ["path/draw.go: Draw", "path/path.go: NewPathFromSegments"]}
{"id": "C15", "title": "Rectangles and circles close", "statement": "Drawing a rectangle returns to the point where it started; drawing a circle ends at the point where its outline started, and every point of the outline is within 0.03% of the radius from the centre.", "quantifier": "every start point, width, height and radius, every point of the outline", "why_tests_cant": "continuum of points and sizes", "anchors": ["path/draw.go: Draw.Rect, Draw.Circle"]}
{"id": "C16", "title": "A quadratic curve command draws that quadratic curve", "statement": "Drawing a quadratic curve from the current point with a control point and an end point produces a cubic that passes through exactly the points of the quadratic curve.", "quantifier": "every current point, control point, end point and curve parameter", "why_tests_cant": "the tests only check a single start point where the defect cannot show", "anchors": ["path/draw.go: Draw.QCurveTo"]}
{"id": "C17", "title": "Printing a path and parsing it back keeps the drawing", "statement": "Printing a connected path as SVG with n decimals and parsing the text gives back the same commands, with every coordinate rounded to n decimals.", "quantifier": "every connected path with finite coordinates and every number of decimals", "why_tests_cant": "text round trip for all numbers of all magnitudes and signs", "anchors": ["path/path.go: Path.SvgString, Segment.SvgString", "path/path_parser.go: ParsePathFromSvg", "transforms/rebuild.go: RebuildTransform"]}
{"id": "C18", "title": "SVG path text means what SVG says, or is refused", "statement": "Parsing a token sequence of the supported absolute and relative commands draws exactly what the SVG rules prescribe, whichever blanks, commas, tabs and line ends stand between the tokens, and also if none stands between a letter and a digit or a point; a command that is not supported, is incomplete or has a malformed number gives an error and never a wrong drawing.", "quantifier": "every sequence of command and number tokens", "why_tests_cant": "unbounded grammar", "anchors": ["path/path_parser.go: ParsePathFromSvg, next, getNextFloats"]}
{"id": "C19", "title": "Splitting a path on moves loses nothing", "statement": "Splitting a path on its moves gives pieces that each start with a move, contain no further move, and together draw exactly the segments of the original in order.", "quantifier": "every path", "why_tests_cant": "arbitrary interleavings of moves and strokes", "anchors": ["path/util.go: SplitPathOnMove"]}
{"id": "C20", "title": "Trimming moves keeps the drawing", "statement": "Trimming removes leading and trailing moves only: the result neither starts nor ends with a move, draws the same strokes, and trimming again changes nothing.", "quantifier": "every path", "why_tests_cant": "arbitrary runs of moves at both ends, including paths of moves only", "anchors": ["path/util.go: TrimMove, TrimTailMove, TrimFirst, TrimLast"]}
{"id": "C21", "title": "A curve's bounding box is exact", "statement": "The bounding box of a cubic curve contains every point of the curve and each of its four sides touches the curve.", "quantifier": "every cubic curve with finite control points of magnitude below 2^63 and every parameter in [0,1]", "why_tests_cant": "a continuum of points per curve; extrema depend on quadratic roots", "anchors": ["bezier/bezier.go: BoundingBox, extrema", "bezier/bezier.go: droots, getMinMax"]}
{"id": "C22", "title": "Splitting a curve retraces it", "statement": "Splitting a cubic at t gives two cubics: the first runs through the points of the original from 0 to t, the second from t to 1, with matching end points.", "quantifier": "every cubic, every split parameter in the open interval and every point", "why_tests_cant": "continuum of curves and parameters", "anchors": ["bezier/bezier.go: SplitCurve, SplitCurveSection"]}
{"id": "C23", "title": "Curve evaluation and derivative are mutually consistent", "statement": "De Casteljau evaluation, the polynomial evaluation and the Bernstein form give the same point, and the reported derivative is the derivative of the point with respect to the parameter.", "quantifier": "every cubic and every parameter", "why_tests_cant": "continuum", "anchors": ["bezier/bezier.go: FindPoint, DeCasteljau, Derivative", "bezier/bezier.go: derive"]}
{"id": "C24", "title": "Line/curve intersections are on both", "statement": "Every intersection reported between a curve and a line segment is a point of the curve that lies on the segment, and every crossing point is reported.", "quantifier": "every cubic and every segment", "why_tests_cant": "cubic root finding with case distinctions on discriminants; tests use three curves", "anchors": ["bezier/bezier.go: IntersectsLine", "bezier/bezier.go: Roots, Align", "bezier/utils.go: between"]}
{"id": "C25", "title": "Projecting a point on a curve finds the nearest point", "statement": "The coarse search used for projecting a point on a curve picks the sample of the curve nearest to the given point.", "quantifier": "every list of samples and every point", "why_tests_cant": "tests only project points for which the defect does not show", "anchors": ["bezier/bezier.go: Project", "bezier/bezier.go: closest"]}
{"id": "C26", "title": "A path's bounding box is exact", "statement": "The whitespace-free bounding box of a path contains every drawn point, and each of its sides is touched by the drawing.", "quantifier": "every path with at least one stroke and finite coordinates whose curves start below 2^63 (the start value of the code's minimum)", "why_tests_cant": "unbounded paths, continuum of points", "anchors": ["path/util.go: BoundingBoxTrimWhitespace, boundingBox", "path/segment_operators.go: BoundingBox"]}
{"id": "C27", "title": "Shifting translates the drawing", "statement": "Shifting by (dx,dy) translates every stroke by exactly that vector; shifts compose by addition and the opposite shift restores the drawing.", "quantifier": "every path and every shift", "why_tests_cant": "all paths", "anchors": ["transforms/shift.go", "path/segment_operators.go: TransformPoints"]}
{"id": "C28", "title": "Moving by a handle puts the handle on the target", "statement": "After moving a path by a handle (any of the nine box points, the start point or the end point) to a target, that handle of the result is exactly the target, and the drawing is only translated.", "quantifier": "every drawn path, handle and target with finite coordinates whose curves start below 2^63", "why_tests_cant": "needs bounding boxes of translated paths in general", "anchors": ["transforms/move.go", "path/attributes.go: PathAttribute, PointPathAttribute"]}
{"id": "C29", "title": "Trimming whitespace puts the drawing in the corner", "statement": "After trimming whitespace the drawing's bounding box starts at (0,0), the drawing is only translated, and trimming again changes nothing.", "quantifier": "every drawn path with finite coordinates whose curves start below 2^63", "why_tests_cant": "all paths", "anchors": ["transforms/trim_whitespace.go"]}
{"id": "C30", "title": "Scaling reaches the requested size", "statement": "Scaling to a width and a height gives a drawing with that width and height; scaling to one of them keeps the aspect ratio.", "quantifier": "every drawn path with finite coordinates whose box has positive size in each requested direction, every positive target", "why_tests_cant": "all paths and sizes", "anchors": ["transforms/scale.go"]}
{"id": "C31", "title": "Rotation is rigid and keeps its axis", "statement": "Rotating a path by an angle about a handle maps each drawn point by the plane rotation about that handle's position: distances are kept and the axis point does not move; rotating back restores the drawing.", "quantifier": "every path, handle position and angle", "why_tests_cant": "continuum", "anchors": ["transforms/rotate.go", "path/util.go: Rotate"]}
{"id": "C32", "title": "Mirroring is a reflection within the box", "statement": "Mirroring about a vertical or horizontal axis with the default handle reflects the drawing inside its own bounding box; mirroring twice restores it.", "quantifier": "every drawn path whose first and last segment end inside the box of its drawing (a leading or trailing move may leave it)", "why_tests_cant": "all paths", "anchors": ["transforms/mirror.go"]}
{"id": "C33", "title": "Reversing draws the same strokes backwards", "statement": "Reversing a connected path draws exactly the reversed strokes in opposite order; reversing twice draws the original strokes.", "quantifier": "every connected path", "why_tests_cant": "unbounded paths with moves anywhere", "anchors": ["transforms/reverse.go: PathReverse, SegmentReverse"]}
{"id": "C34", "title": "Cleanup never changes what is drawn", "statement": "The cleanup of a path starts with a move from the origin, is connected, has no two moves in a row, and draws the same strokes in the same order; only a start point that prints the same as the previous end at the given precision may be replaced by that end.", "quantifier": "every path whose segments have no NaN end, every precision", "why_tests_cant": "arbitrary gaps and runs of moves", "anchors": ["transforms/cleanup.go"]}
{"id": "C35", "title": "Deduplication never fails and never invents strokes", "statement": "Removing duplicate segments succeeds on every path and every stroke of the result is a stroke of the input.", "quantifier": "every path", "why_tests_cant": "index errors appear only for certain prefixes", "anchors": ["transforms/dedup.go"]}
{"id": "C36", "title": "Reordering keeps every stroke", "statement": "Reordering a path draws the same strokes, each possibly backwards, in some order: none is lost and none is duplicated before deduplication. Next comes the run one of whose ends is nearest to the pen, if that distance prints as zero, and else the first that is left.", "quantifier": "every path", "why_tests_cant": "greedy search over all permutations", "anchors": ["transforms/path_reorder.go"]}
{"id": "C37", "title": "A transform pipeline runs in order and stops at the first error", "statement": "Applying a list of transforms applies them from first to last, each to the result of the previous one; the first error is returned and later transforms are not applied.", "quantifier": "every list of transforms and every path", "why_tests_cant": "unbounded lists", "anchors": ["path/transforms.go: MultiTransform", "dom/models.go: HandleTransforms"]}
{"id": "C38", "title": "Joining component paths keeps all drawings", "statement": "Joining paths that each start with a move draws the strokes of each, in order, and nothing else.", "quantifier": "every non-empty list of paths that start with a move or are empty", "why_tests_cant": "unbounded lists with arbitrary ends", "anchors": ["transforms/join.go: SimpleJoin.JoinPaths"]}
{"id": "C39", "title": "Line intersection is on both lines", "statement": "When the intersection of two lines is found, it lies on both; when both are neither parallel nor vertical up to the working precision it is found.", "quantifier": "every pair of lines with finite coordinates, each exactly vertical or not vertical to the working precision", "why_tests_cant": "slopes, infinities and NaN from division by zero in all combinations", "anchors": ["path/util.go: LineIntersection"]}
{"id": "C40", "title": "A parallel line keeps its distance", "statement": "The parallel of a segment at distance d has the same direction and length and lies at distance |d| from it.", "quantifier": "every segment of non-zero length and every distance", "why_tests_cant": "continuum", "anchors": ["path/util.go: Parallel", "path/segment_operators.go: Offset"]}
{"id": "C41", "title": "A map returns what was put into it", "statement": "After putting a value under a plain key, getting that key returns the value and every key that neither is that key nor goes through it is unchanged; after a successful dotted put the value is found by following the dotted path. A literal key with dots takes precedence over the dotted path.", "quantifier": "every nested map, key and value", "why_tests_cant": "arbitrary nesting, literal keys with dots shadow nested ones", "anchors": ["dynmap/dynmap.go: Put, PutWithDot, Get, Contains"]}
{"id": "C42", "title": "A failed dotted put changes nothing", "statement": "A dotted put that fails because a non-map is in the way leaves the whole map unchanged.", "quantifier": "every nested map, path and value", "why_tests_cant": "requires that no intermediate map is created before the failure", "anchors": ["dynmap/dynmap.go: PutWithDot"]}
{"id": "C43", "title": "Merging is a right-biased deep merge", "statement": "After merging b into a, looking up any path gives b's value if b has one there that is not a map, a's value if b has nothing there, and a map if both have maps; merging a map with itself changes nothing and merging is independent of iteration order.", "quantifier": "every pair of nested maps without duplicate keys, where the keys of b have no dots, every path and every iteration order", "why_tests_cant": "unbounded nesting; iteration order of Go maps is random", "anchors": ["dynmap/dynmap.go: Merge"]}
{"id": "C44", "title": "Flattening and unflattening are inverse", "statement": "Unflattening the flattened form of a map whose keys have no dots and that has no lists and no empty inner map gives the same map back, whatever the iteration order.", "quantifier": "every such nested map and every iteration order", "why_tests_cant": "random map order, unbounded nesting", "anchors": ["dynmap/dynmap.go: Flatten, UnFlatten"]}
{"id": "C45", "title": "Comment stripping leaves data alone", "statement": "Loading a JSON document with comments gives the same data as the document without the comments; in particular string values are not altered.", "quantifier": "every text", "why_tests_cant": "regular expression versus string context, any text", "anchors": ["dynmap/dynmap.go: ParseJSON"]}
{"id": "C46", "title": "Parameter lookup always terminates and the nearest definition wins", "statement": "Looking up a parameter terminates for every chain of elements, including cyclic definitions; a value defined on the element itself takes precedence over its ancestors, and an undefined name is reported as missing.", "quantifier": "every chain of elements, every set of definitions including cyclic ones, every name", "why_tests_cant": "cycles of any shape and depth", "anchors": ["dom/param_lookup.go: BasicParamLookerUpper.Lookup, localLookup"]}
{"id": "C47", "title": "Expression evaluation terminates and never diverges on cycles", "statement": "Evaluating an expression with parameters that are themselves expressions terminates; a cyclic definition gives an error; an acyclic set of definitions gives the value obtained by substitution.", "quantifier": "every expression and every set of definitions", "why_tests_cant": "unbounded definitions; a counter bounds the whole evaluation", "anchors": ["dom/expression_eval.go: evalExp, pllExpression.Get"]}
{"id": "C48", "title": "Repeat fills the space with exact copies", "statement": "Repeating a component draws floor(max/size) copies in each direction, each a translate of the first by a multiple of its size, none beyond the maximum.", "quantifier": "every component size, every maximum", "why_tests_cant": "all sizes; off-by-one at exact multiples", "anchors": ["dom/repeat_component.go: RepeatComponent.Render"]}
{"id": "C49", "title": "A repeated edge has exactly the length of its edge", "statement": "The left part, the repeats and the right part of a repeated edge together have exactly the length of the edge, with equal left and right overhang apart from the paddings.", "quantifier": "every edge length, component width and paddings", "why_tests_cant": "all lengths", "anchors": ["components/repeat_edge.go"]}
{"id": "C50", "title": "Automatic splitting stops only when the part fits", "statement": "When automatic splitting declares that a part fits the maximum width and height, the part fits, possibly turned by a quarter turn; it rotates a part at most once before splitting it.", "quantifier": "every part size and every maximum size", "why_tests_cant": "comparisons between four numbers in all orders; the example documents use one order only", "anchors": ["dom/part_splitter.go: TransformPart"]}
{"id": "C51", "title": "Lathe layers are complete and numbered consecutively", "statement": "The lathe produces a layer for every height at which the outline has at least two intercepts of positive extent, numbered 0,1,2,..., and reports the total height as number of layers times thickness; a non-positive thickness is an error.", "quantifier": "every outline (as a function from heights to intercepts), thickness and paddings", "why_tests_cant": "loop over real heights with skipping", "anchors": ["dom/lathe_part_transformer.go"]}
{"id": "C52", "title": "A part is repeated the requested number of times", "statement": "Rendering a part with repeat.total n gives n parts (before part transformers), labelled label:0 ... label:(n-1) when n > 1 and the label is not empty, and label otherwise; the part transformers are applied in order, each to every part, and their results are concatenated.", "quantifier": "every n, label and transformer list", "why_tests_cant": "all n", "anchors": ["dom/part.go: Part.RenderPart"]}
{"id": "C53", "title": "A log message reaches all ancestors", "statement": "A message logged to a logger is also recorded by every ancestor, and an ancestor reports errors exactly when it or a descendant logged one.", "quantifier": "every logger tree and every sequence of messages", "why_tests_cant": "unbounded trees", "anchors": ["util/logging.go: HfdLog.Logf, NewChild, HasErrors"]}
{"id": "C54", "title": "Unit conversion is invertible", "statement": "Converting millimetres to inches and back, or inches to millimetres and back, gives the original number.", "quantifier": "every number", "why_tests_cant": "continuum", "anchors": ["dom/common.go: MMToInch, InchToMM"]}
{"id": "C55", "title": "Output files never collide", "statement": "The files written for the sheets of a plan have different names for different sheets, and different plans write to different files.", "quantifier": "every plan name and every pair of sheet numbers", "why_tests_cant": "numbers beyond the padding width; directories", "anchors": ["main.go: save, createFilename, RenderAll"]}
{"id": "C56", "title": "Decoding XML rebuilds the element tree", "statement": "Decoding the token stream of a well-formed element gives that element with all its attributes, text and children in order.", "quantifier": "every element tree", "why_tests_cant": "unbounded trees, same-named nested elements", "anchors": ["parser/svgparser.go: Element.Decode, DecodeFirst"]}
{"id": "C57", "title": "SVG import honours transforms", "statement": "Importing an SVG element with a transform attribute applies that transform to its path.", "quantifier": "every element and transform", "why_tests_cant": "the code never applies any; tests have no such element", "anchors": ["parser/svgparser.go: ElementToPath"]}
{"id": "C58", "title": "A custom component is its base with the instance's overrides", "statement": "Instantiating a custom component gives every attribute of the base, overridden by those of the instance, and its transforms are the base's followed by the instance's. Exceptions: the type stays that of the base (group for a part), the key custom_component is not copied from the base, and for a part the parameter index of the base is dropped.", "quantifier": "every base and instance, as trees without dotted keys", "why_tests_cant": "arbitrary attribute sets", "anchors": ["dom/document.go: CreateCustomComponent"]}
{"id": "C59", "title": "Reducing a curve retraces it", "statement": "The pieces a curve is reduced to, taken one after the other, run through exactly the whole curve from 0 to 1 without gap or overlap, each labelled with its true parameters; or there are no pieces at all (always so when the curve starts at speed zero). The two nested loops always end.", "quantifier": "every cubic curve with real coordinates", "why_tests_cant": "a continuum of curves; the equality is between functions", "anchors": ["bezier/bezier.go: reduce"]}
{"id": "C60", "title": "The intersection of two lines is on both", "statement": "lli4 reports an intersection exactly when the two lines are not parallel, and then reports the one point that is on both.", "quantifier": "every four points over any ordered field", "why_tests_cant": "a continuum of inputs", "anchors": ["bezier/bezier.go: lli4, lli8"]}
{"id": "C61", "title": "An offset point is at the requested distance, square to the curve", "statement": "OffsetPoint is at distance |d| from the curve's point at t, in the direction square to the curve, on the side given by the sign of d.", "quantifier": "every curve whose control points are not its end points, every t where its speed is not zero, every d", "why_tests_cant": "a continuum of inputs", "anchors": ["bezier/bezier.go: OffsetPoint, normal"]}
{"id": "C62", "title": "Two boxes overlap exactly when they share inner points", "statement": "BoundingBoxOverlaps is true exactly when some point is strictly inside both boxes.", "quantifier": "every two boxes of positive size", "why_tests_cant": "a continuum of inputs", "anchors": ["bezier/bezier.go: BoundingBoxOverlaps"]}
{"id": "C63", "title": "A projection reports its distance and its parameter", "statement": "Project returns a point of the curve together with its distance from the given point and its parameter.", "quantifier": "every curve and every point", "why_tests_cant": "a continuum of inputs", "anchors": ["bezier/bezier.go: Project"]}
{"id": "C64", "title": "Reported crossings of two curves are crossings, and the search ends", "statement": "Every pair reported by IntersectsCurve or IntersectsSelf is within the five decimals it is rounded to of a pair of parameters whose points are closer than twice the threshold; for a positive threshold the recursion ends. The two parameters of a crossing of a curve with itself have a whole piece of the reduced curve between them, so that touching ends of neighbouring pieces are not reported.", "quantifier": "every two curves with coordinates below 2^63, every positive threshold", "why_tests_cant": "the recursion depth is unbounded; a continuum of curves", "anchors": ["bezier/bezier.go: IntersectsCurve, IntersectsSelf, pairIteration, _curveIntersects"]}
{"id": "C65", "title": "Every crossing of two curves is reported", "statement": "If two curves meet, IntersectsCurve reports the meeting.", "quantifier": "every two curves with coordinates below 2^63, every positive threshold", "why_tests_cant": "the recursion depth is unbounded; a continuum of curves", "anchors": ["bezier/bezier.go: IntersectsCurve, pairIteration, reduce"]}
{"id": "C66", "title": "The point at a distance along a line", "statement": "PointAtDistance(a, b, d) is the point at distance d from a in the direction of b when the line is exactly vertical or horizontal or goes to the right; when it goes to the left and is slanted the point is at distance d in the opposite direction.", "quantifier": "every line of non-zero length and every distance; lines that are vertical or horizontal only to three decimals excluded", "why_tests_cant": "the direction depends on the sign of a difference and on rounding to three decimals; tests use a handful of lines that go right", "anchors": ["path/path.go: LineSegment.PointAtDistance"]}
{"id": "C67", "title": "Offsetting a curve moves its pieces sideways", "statement": "Scaling a curve by d is possible exactly when its end directions are not parallel; it moves the end points by exactly d square to the curve, to the left for positive d, and keeps the direction at an end unless the normals meet there; offsetting a curve yields, in order, the scaled simple pieces of the curve up to the first that cannot be scaled.", "quantifier": "every curve whose end normals meet, every distance", "why_tests_cant": "infinitely many curves; a wrong side or a swapped normal is plausible on symmetric examples", "anchors": ["bezier/bezier.go: Scale, _scale, Offset"]}
{"id": "C68", "title": "Removing a key removes that key and nothing else", "statement": "After removing a key that is literally present, or else the dotted path it spells, nothing is found at it or below it and every other path sees what it saw; removing an absent key changes nothing; a key without dots is not found after it has been removed.", "quantifier": "every nested map and every key", "why_tests_cant": "literal keys with dots shadow nested ones; frame condition over all paths", "anchors": ["dynmap/dynmap.go: Remove, RemoveAll"]}
{"id": "C69", "title": "Adding to a list and putting if absent", "statement": "PutIfAbsent keeps a value that is there and otherwise puts the new one; AddToSlice appends in order to the list that is there, starts a list when nothing is there, and leaves any other value alone; PutAll puts exactly the given entries.", "quantifier": "every nested map, key and list of values", "why_tests_cant": "unbounded values; the list is looked up by a dotted key but written under the literal one", "anchors": ["dynmap/dynmap.go: PutIfAbsent, AddToSlice, PutAll"]}
{"id": "C70", "title": "A part draws what its children draw", "statement": "Rendering a part renders its children in order, each from the point where the one before it stopped; the part's path draws the strokes of the children one after the other (changed by the part's transforms, if any), moved so that the bounding box of the drawing begins at the origin, and it never contains two moves in a row. A part without children is an error.", "quantifier": "every list of children (as functions from cursor to path), every list of transforms and every cursor", "why_tests_cant": "the number of children and the paths they return are unbounded, and moves are removed and rewritten in three different places", "anchors": ["dom/part.go: Part.Render", "path/util.go: TrimTailMove", "transforms/trim_whitespace.go", "transforms/join.go"]}
{"id": "C71", "title": "Joining gives one run", "statement": "The join transform either fails to apply to a drawing without a leading move or returns a drawing that is one run: a single move followed by strokes only. Its recursion ends for every drawing.", "quantifier": "every drawing that begins with a move, every precision, closed or not", "why_tests_cant": "the loop restarts itself after each repair of the path; whether it ends depends on a measure that no finite set of drawings exercises", "anchors": ["transforms/join.go: JoinTransform.PathTransform, join", "path/util.go: TrimMove"]}
{"id": "C72", "title": "Joining leaves a drawing alone that is already joined", "statement": "A drawing in one run, connected, in which no stroke goes back over the one before it to the working precision, is returned with the same strokes; with the option to close it, the same holds when the last stroke ends exactly where the first begins.", "quantifier": "every connected run of finite strokes", "why_tests_cant": "the number of strokes is unbounded; the transform removes duplicate strokes by their printed form, so the exact condition matters", "anchors": ["transforms/join.go", "transforms/dedup.go: DedupSegmentsTransform", "transforms/path_reorder.go"]}
{"id": "C73", "title": "Closing a drawing closes it", "statement": "After closing, the drawing ends where it begins, when its first and last strokes are lines that are not parallel to the working precision, or both curves.", "quantifier": "every drawing with at least two strokes of the given kinds, whatever lies between them", "why_tests_cant": "unbounded middle part and arbitrary slopes", "anchors": ["transforms/join.go: JoinTransform.PathTransform (ClosePath)", "path/segment_operators.go: Join, JoinLines, JoinCurves"]}
{"id": "C74", "title": "Joining two strokes keeps their outer ends", "statement": "Whatever two strokes are joined, the result begins where the first begins and ends where the second ends.", "quantifier": "every two lines or curves over the IEEE-style numbers and every precision", "why_tests_cant": "sixteen cases of kinds and crossings, with curves cut at numerically found parameters", "anchors": ["path/segment_operators.go: Join, JoinLines, JoinLineAndCurve, JoinCurveAndLine, JoinCurves, Split"]}
{"id": "C75", "title": "Joined strokes hang together", "statement": "Joining two strokes gives strokes of which each begins exactly where the one before ends, when the ends agree to the precision, when the strokes are lines that are not parallel, when they are two curves, or when they are a line and a curve that do not meet.", "quantifier": "every two strokes of these kinds", "why_tests_cant": "the point of meeting is computed for arbitrary slopes and distances", "anchors": ["path/segment_operators.go: Join, JoinLines, JoinLineAndCurve, JoinCurveAndLine, JoinCurves"]}
{"id": "C76", "title": "Offsetting a path always comes to an end", "statement": "The offset transform ends and succeeds on every path, whatever the distance and the size asked for: it calls itself at most four levels deep. At distance zero the path is unchanged; a drawing in one run is offset to a drawing in one run; before rounding and joining the offset of each line is exactly parallel to it at the distance, and a line whose ends agree to the precision has no offset.", "quantifier": "every path over the IEEE-style numbers, every distance, both precisions, every requested size", "why_tests_cant": "the transform calls itself on pieces and on the reversed path, and prints and parses the path in between; any of the numbers may be infinite or NaN", "anchors": ["transforms/offset.go: OffsetTransform.PathTransform", "transforms/rebuild.go", "path/segment_operators.go: Offset", "path/util.go: SplitPathOnMove, Parallel"]}
{"id": "C77", "title": "The matrix transform is the affine map", "statement": "The matrix transform applies (x, y) -> (Ax + Cy + E, Bx + Dy + F) to every point drawn; two in a row are the product of the matrices; the identity changes nothing; translations and scalings agree with the shift and scale transforms.", "quantifier": "every matrix and every path over any ordered field; finite paths in extended arithmetic", "why_tests_cant": "unbounded paths and all matrices", "anchors": ["transforms/matrix.go: MatrixTransform", "path/segment_operators.go: TransformPoints"]}
{"id": "C78", "title": "Turning and scaling puts the ends on the two given points", "statement": "For a drawing whose visible start and end differ, the rotate-and-scale transform applies to every point the one similarity that takes the visible start to the requested start and the visible end to the requested end. A drawing that ends where it begins shrinks to a point.", "quantifier": "every finite drawing, every two requested points, equal or not", "why_tests_cant": "the result is put together from angles, box corners and ratios of coordinates, with special cases for horizontal and vertical lines", "anchors": ["transforms/rotate_scale.go: RotateScaleTransform", "transforms/rotate.go", "transforms/scale.go", "transforms/move.go", "path/path.go: Angle"]}
{"id": "C79", "title": "A cut keeps the segment and happens at the height of the knife", "statement": "The pieces that a knife cuts from a segment lead from its start to its end without a gap and are strokes exactly when it is. A straight line cut by a horizontal knife is cut at most twice and the search ends; every cut is at exactly the height of the knife; a steep line that crosses the knife is cut unless an end prints like the height; a crossing beside the knife does not cut.", "quantifier": "every segment and every knife over the IEEE-style numbers for the first part; all straight lines, all horizontal knives and precisions for the rest", "why_tests_cant": "the function calls itself on both halves and only the printed form of the crossing stops it; lines that are nearly vertical to the precision are cut at another place than where they cross", "anchors": ["path/util.go: KnifeCut, LineIntersection", "path/segment_operators.go: Intersect, Split"]}
{"id": "C80", "title": "The horizontal slice keeps what rises above the height", "statement": "Slicing a drawing of straight lines at a height ends; each line stays whole or is cut at exactly this height, and the result draws, in order, exactly the pieces that visibly rise above it. If no line is to the left of the knife and the lines that cross are steep, nothing of the result is below the height, up to the printed precisions.", "quantifier": "every drawing of straight lines of any length, every height, both precisions", "why_tests_cant": "unbounded drawings; the cut, the filter and the cleanup each compare printed numbers with different precisions", "anchors": ["transforms/slice.go: HSliceTransform", "path/util.go: KnifeCut, BoundingBoxWithWhitespace", "transforms/cleanup.go"]}
{"id": "C81", "title": "Intercepts are sorted, on the drawing and complete", "statement": "The intercepts of a drawing of straight lines with a height are ordered by their abscissas; each is at exactly this height on a line of the drawing, up to the precision; every steep line that crosses the height to the right of the knife's start is met.", "quantifier": "every drawing of straight lines, every height, every precision", "why_tests_cant": "unbounded drawings; the intersection of lines has special cases for lines that are vertical or parallel to the precision", "anchors": ["path/util.go: HorizontalIntercepts, BoundingBoxWithWhitespace", "path/segment_operators.go: Intersect"]}
{"id": "C82", "title": "A gear is a closed ring of congruent involute teeth", "statement": "For sensible sizes the outline of a gear is a closed polygon of sixteen corners for each tooth; every tooth is the first one turned by a whole number of pitches; the corners of a flank are on the involute of the base circle, as far apart on the pitch circle as the thickness says; except for its last corner a tooth is its own mirror image; nothing is drawn outside of the outer circle. A tooth does not end where the next begins.", "quantifier": "every number of teeth from one on and all real widths, pressure angles below a right angle, clearances and backlashes", "why_tests_cant": "unbounded number of teeth and real sizes; the geometry is only visible in the relation between all the corners", "anchors": ["components/gear.go: GearComponent.Render, q6, q7, iang", "path/util.go: PolarToCartesian"]}
{"id": "C83", "title": "The attributes of a path name the points that they say", "statement": "Two numbers with a comma between them name the point with these coordinates, whatever the path; the text that the code makes from a point names this point to within half a unit of the last decimal; the name of a point of the box followed by .X or .Y is its coordinate; width and height are those of the smallest box around what is drawn; other names are errors.", "quantifier": "every text, every path with at least one stroke, every precision", "why_tests_cant": "all texts and all drawings; the box is that of curves", "anchors": ["path/attributes.go: PathAttribute, parsePoint, ToPathAttrFromPoint, PointPathAttribute"]}
{"id": "C84", "title": "Around places the copies on the sides of a regular polygon", "statement": "An around component with a positive radius and at least two edges draws one copy for each side of the regular polygon around its centre; each copy is what the component draws for the length of a side, laid along its side so that the origin is on one corner and the point at the length is on the next; the polygon closes.", "quantifier": "every number of edges, radius, precision, centre with at most as many decimals as the precision, and every component that is repeated", "why_tests_cant": "unbounded number of edges; the last side has to meet the first one", "anchors": ["components/around.go: AroundComponent.Render", "path/path.go: NewLineSegmentAngle", "path/attributes.go: ToPathAttrFromPoint"]}
{"id": "C85", "title": "An edge runs from its start to its end", "statement": "An edge between two different points draws what its children draw for the length of the edge, moved rigidly so that its handle is on the start and the horizontal direction points to the end; with the default handle the origin comes to the start and the point at the length comes to the end.", "quantifier": "all pairs of different points, all children and all handles", "why_tests_cant": "all positions and directions, arbitrary children", "anchors": ["components/basic_edge.go: BasicEdgeComponent.Render"]}
{"id": "C86", "title": "Copies between the intercepts of an outline", "statement": "With a positive spacing the component ends: rows are apart by at least the spacing and lie between the first height and the bottom of the outline; in each row the copies are between the first and the second intercept, the third and the fourth and so on, without overlap; without any copy there is an error.", "quantifier": "every outline with intercepts, spacing, first height and repeated component of non-negative height", "why_tests_cant": "the number of rows depends on the heights that the copies turn out to have, and nothing bounds it for a spacing that is not positive", "anchors": ["components/xintercept.go: XInterceptComponent.Render", "path/util.go: HorizontalIntercepts"]}
{"id": "C87", "title": "Scaling by factors and to two points", "statement": "Without a width, a height and two different points every point is multiplied by the factors. With two points, the displacement from the first to the last point of the path is stretched to the size of the displacement between the points, in each direction in which both are not zero, and the other direction takes the same factor. The factors are never negative.", "quantifier": "every path with real coordinates, all factors and all pairs of points", "why_tests_cant": "real coordinates; the cases where one of four differences is zero", "anchors": ["transforms/scale.go: ScaleTransform.PathTransform", "path/util.go: GetStartAndEnd"]}
{"id": "C88", "title": "A draw component runs its commands", "statement": "A command with an unknown name, or without an attribute that its name needs, is refused with an error; a command that has what it needs is accepted; whatever the commands are, the rendered path is connected, begins with a move to the cursor, and begins with the path of any first part of the commands.", "quantifier": "every list of commands with arbitrary attributes, every cursor", "why_tests_cant": "unbounded sequences of commands; every combination of missing attributes", "anchors": ["dom/draw_component.go: DrawComponent.Render, svgScaleTo, svgRotateScaleTo"]}
{"id": "C89", "title": "An svg text is fitted between the end of the drawing and a point", "statement": "svg_connect_to adds the strokes of the svg text turned and scaled so that the first begins at the end of the drawing and the last ends at the given point; svg_scale_to does so by stretching in the two directions when the text leads the same way, left or right and up or down, as the point lies.", "quantifier": "every drawing, every readable svg text, forwards or reversed, every point", "why_tests_cant": "all drawings, texts and positions; the fit only shows in the relation between three paths", "anchors": ["dom/draw_component.go: svgScaleTo, svgRotateScaleTo", "transforms/rotate_scale.go: RotateScaleTransform.PathTransform", "transforms/scale.go: ScaleTransform.PathTransform", "path/path_parser.go: ParsePathFromSvg"]}
{"id": "C90", "title": "Sorting maps by a column", "statement": "Values without truth values are ordered by Less as a strict weak order: numbers (cut to whole numbers) before texts before everything else. Sorting a list of maps by a column gives the same maps in an order in which no later one is less than an earlier one.", "quantifier": "every list of maps, every column, any sorting procedure that only compares", "why_tests_cant": "all orders of all lists; transitivity ranges over three values of different kinds", "anchors": ["dynmap/sort.go: Less, ToSortVal, DynMapSlice.Less"]}
{"id": "C91", "title": "Attributes are found with their kind", "statement": "A number in the map of the element is found as it is; a point is found from a map with two coordinates, from a text with two expressions, or from an angle and a length; of the names with a dollar sign only the cursor is a point, and only while rendering; a flag is found for ten words only; a default is used exactly when nothing is found; looking up a point ends unless names refer to each other in a circle.", "quantifier": "every element with ancestors, every local map, every library for expressions", "why_tests_cant": "unbounded references between names; every kind of value under every name", "anchors": ["dom/param_lookup.go: Attr.Point, Attr.Point2, Attr.ToPoint, Attr.Float64, Attr.Bool, Attr.String, Attr.MustPoint"]}
{"id": "C92", "title": "Transforms are made from their maps, all of them or none", "statement": "A map under transforms is made into a transform exactly when its type is one of the twelve registered names and it has the attributes that this transform needs. If one map of a list cannot be made, no transform is applied and there is an error. Otherwise the transforms are applied in the order of the list, each to the result of the one before it, and the cursor is where the result ends. A map of type matrix, move, scale or mirror has the effect of its numbers, with the documented defaults.", "quantifier": "every list of maps with any attributes, every path", "why_tests_cant": "all combinations of names and attributes, and lists of any length", "anchors": ["dom/transform_factories.go: CreateTransform methods", "dom/models.go: BasicComponent.HandleTransforms", "dom/app_context.go: Factories.MakeTransform, Factories.MakeTransforms", "path/transforms.go: MultiTransform"]}
{"id": "C93", "title": "What is written to the file is what the component tree draws", "statement": "For every tree of components the path that is rendered has the strokes that a reader of the SVG text sees: every segment begins where the pen is when its command is read. So the text that is printed for it, read again, draws the same strokes up to rounding.", "quantifier": "every tree of components of any depth, any attributes, any starting cursor, any number of decimals; no join or offset transform in the tree, gears have at least one tooth", "why_tests_cant": "trees of any depth with any attributes; a segment records its own start, which the SVG text does not contain, so a mismatch is invisible in the model objects that tests look at", "anchors": ["dom/part.go: Part.Render", "dom/draw_component.go: DrawComponent.Render", "dom/repeat_component.go: RepeatComponent.Render", "dom/group_component.go: GroupComponent.Render", "components/repeat_edge.go: RepeatEdgeComponent.Render", "components/basic_edge.go: BasicEdgeComponent.Render", "components/xintercept.go: XInterceptComponent.Render", "components/around.go: AroundComponent.Render", "components/gear.go: GearComponent.Render", "path/path.go: SvgString"]}
{"id": "C94", "title": "Rendering a component tree does not crash", "statement": "Rendering a tree of components ends with a path that is not empty or with an error, and never panics, if groups and edges have components, numbers of copies around a centre are not negative, there is no intercept component, and no transform is a join, an offset or a slice.", "quantifier": "every tree of components of any depth, any attributes, any starting cursor", "why_tests_cant": "a panic needs one particular combination of attributes in one place of a tree of unbounded depth", "anchors": ["dom/part.go: Part.Render", "dom/group_component.go: GroupComponent.Render", "components/basic_edge.go: BasicEdgeComponent.Render", "components/around.go: AroundComponent.Render", "components/xintercept.go: XInterceptComponent.Render", "transforms/join.go: SimpleJoin.JoinPaths", "path/util.go: PathCursor"]}
{"id": "C95", "title": "Custom components are resolved in finitely many steps", "statement": "Making a component from its map ends, with the component or an error, however deep custom components are used inside each other, if the custom components of the document consist of the component types that the program has. What has been made consists of such types again, so it can serve as a custom component in turn.", "quantifier": "every map of any depth, every set of custom components with any overrides", "why_tests_cant": "nesting of any depth, and every combination of overrides and custom components", "anchors": ["dom/app_context.go: MakeComponent, MakeComponents", "dom/document.go: DocumentContext.CreateCustomComponent", "dynmap/dynmap.go: Merge, Clone"]}
{"id": "C96", "title": "A component can be made again from its own map", "statement": "The map that a component has after it has been made, with everything custom already resolved, makes the same component again in any document, whatever custom components that document has.", "quantifier": "every map of any depth, every set of custom components in the document where it is made and in the one where it is made again", "why_tests_cant": "trees of any depth and pairs of documents; imported components are made again each time they are used", "anchors": ["dom/part.go: PartFactory.CreateComponent", "dom/group_component.go: GroupComponentFactory.CreateComponent", "dom/repeat_component.go: RepeatComponentFactory.CreateComponent", "components/repeat_edge.go: RepeatEdgeComponentFactory.CreateComponent", "components/basic_edge.go: BasicEdgeComponentFactory.CreateComponent", "components/xintercept.go: XInterceptComponentFactory.CreateComponent", "components/around.go: AroundComponentFactory.CreateComponent", "dom/app_context.go: MakeComponent"]}
{"id": "C97", "title": "A document that names a file extends the document in the file", "statement": "What the document says itself wins over the file, what it does not say is taken from the file, the imports of the file come before its own, and the file may name a further file. If no file leads back to itself through names and imports, reading ends.", "quantifier": "every document, every set of files without cycles", "why_tests_cant": "files that name and import each other in chains of any length", "anchors": ["dom/app_context.go: ParseDocument", "dynmap/dynmap.go: Merge, AddToSlice, Remove"]}
{"id": "C98", "title": "Imports do not depend on the order of Go maps", "statement": "A custom component of an imported document is known under its alias, or else under its type, with the parameters of its document as defaults; the others stay as they are. If no import statement gives a name twice, the parsed document does not depend on the order in which Go iterates over the elements of the imported documents. If no two components have the same id, all components of a document are among its elements.", "quantifier": "every set of files, every document, every two iteration orders at every place", "why_tests_cant": "Go chooses the iteration order at random, and the orders of all imported documents multiply", "anchors": ["dom/app_context.go: ParseDocument, populateElementsByID", "dom/document.go: Document.AllElements", "dom/models.go: BasicElement.Defaults"]}
{"id": "C99", "title": "The text of a sheet is the XML of the sheet", "statement": "The file written for a sheet is well-formed XML with one element that has the size of the sheet and, for every part in the order of the layout, one group with the place of the part, its path and its label.", "quantifier": "every page setting and every list of placed parts of any length whose texts contain no markup and whose labels have a place; any numbers, also infinite ones and NaN", "why_tests_cant": "parts and labels are unbounded, and a reader sees the whole file, where one unclosed group changes everything after it", "anchors": ["dom/svg_renderer.go: docRenderable.render, start, end, WriteSVG, NewSVGDocument"]}
{"id": "C100", "title": "A written sheet can be imported again", "statement": "Importing the file written for a sheet as an SVG gives a drawing with the strokes of all parts in the order of the layout, each rounded as it is written. A sheet with a label or without parts makes the import panic.", "quantifier": "every page setting and every list of parts whose texts contain no markup and whose labels have a place", "why_tests_cant": "it goes through the writer, the XML reader, the importer and the path parser, for sheets of any size", "anchors": ["dom/svg_renderer.go: WriteSVG", "parser/svgparser.go: ParseSVG, ElementToPath", "parser/svgparser.go: Parse"]}
{"id": "C101", "title": "A part is written where the layout puts it", "statement": "The transform attribute written for a part spells, as SVG reads it, the transforms of the part rounded to three decimals. Every point of the part is written within half a thousandth, plus half a unit of the last decimal of the path, of where the layout puts it; parts that the layout keeps apart are apart in the file up to twice this rounding.", "quantifier": "every placed part, turned or not, every stroke and every point of it, every precision", "why_tests_cant": "real coordinates, every point of every curve", "anchors": ["dom/svg_renderer.go: docRenderable.render", "path/path.go: SvgString"]}
{"id": "C102", "title": "Integers in texts are read as Go writes them", "statement": "A text is read as an integer exactly when, without the spaces around it, it is a literal of Go (with sign, base and underscores) for an integer of 64 bits, and then as this integer. Every such integer is read back from its decimal text.", "quantifier": "every text of any length and every integer of 64 bits", "why_tests_cant": "texts are unbounded; signs, bases, underscores and overflow combine", "anchors": ["dynmap/typecast.go: ToInt64, ToInt", "dynmap/dynmap.go: GetInt, MustInt"]}
{"id": "C103", "title": "Lists in texts are split at the delimiter", "statement": "Splitting a text at a delimiter gives pieces without the delimiter that, joined with it, are the text; texts without the delimiter come back when they are joined and split; a list of integers written with a delimiter is read as this list.", "quantifier": "every text, every delimiter, every list of any length", "why_tests_cant": "texts, delimiters and lists are unbounded", "anchors": ["dynmap/dynmap.go: GetIntSliceSplit, GetStringSliceSplit, GetIntSlice, GetStringSlice"]}
{"id": "C104", "title": "A map survives a URL", "statement": "A map without lists comes back from the URL values it is encoded to, with the texts of its values, whatever the order of the values. A list does not come back.", "quantifier": "every map of any depth without lists, dots and brackets in its keys and without empty maps, and every order of the values", "why_tests_cant": "nesting and order are unbounded", "anchors": ["dynmap/dynmap.go: MarshalUrl, urlEncode, UnmarshalUrlValues"]}
{"id": "C105", "title": "Every drawing command draws its shape", "statement": "move, line, curve, smooth_curve, line_by_angle, rectangle and circle add exactly their strokes to the drawing and leave all others; every relative command does what its absolute one does with all points moved by the current position.", "quantifier": "every drawing, every command with every value of its attributes", "why_tests_cant": "coordinates are real and drawings of any length", "anchors": ["dom/draw_component.go: Render", "path/draw.go: MoveTo, LineTo, CurveTo, SmoothCurveTo, LineByAngle, Rect, Circle, ToAbsPosition"]}
{"id": "C106", "title": "A rounded corner is round", "statement": "round_corner draws a line towards the corner, a curve that begins and ends at the radius from the corner, and a line to the end; in a right angle the curve is within 0.03% of the circle of the radius that touches both legs. If the second leg slants, the curve is always wrong.", "quantifier": "every drawing, corner, end and radius: legs along the axes, and first legs that slant to the right", "why_tests_cant": "real coordinates, every point of the curve", "anchors": ["path/draw.go: RoundedCornerTo", "path/path.go: LineSegment.PointAtDistance", "path/util.go: Distance"]}
{"id": "C107", "title": "The list of files is the files", "statement": "FileList of a directory and an ending lists exactly the files below the directory, at any depth, whose name has the ending, each once and in the order of names; it fails exactly if the directory does not exist or something below cannot be listed. RelFileList is the same list without the directory, if the directory is written in its shortest form.", "quantifier": "every file system of any depth, every working directory, every way to write the directory, every ending without a slash", "why_tests_cant": "trees, names and ways to write a path are unbounded", "anchors": ["util/file.go: FileList, RelFileList, DirectoryList"]}
{"id": "C108", "title": "Clearing a directory removes those files and no others", "statement": "ClearDir removes exactly the files below the directory whose name has the ending; if the files cannot be listed it removes nothing.", "quantifier": "every file system, directory and ending", "why_tests_cant": "trees of any size", "anchors": ["util/file.go: ClearDir"]}
{"id": "C109", "title": "Comparing directories tells the truth about each file on the left", "statement": "For each file on the left there is one report, in order: it has no partner of its name, or it is equal to the first partner of its name, or it is not.", "quantifier": "every file system, every two directories and every honest library for differences", "why_tests_cant": "trees of any size, any texts", "anchors": ["main.go: CompareDirectories, IsEqualDiff"]}
{"id": "C110", "title": "Rendering a directory writes the sheets and touches nothing else", "statement": "RenderAll changes no file but the sheets it writes, so no file whose name does not end in .svg; and if the documents have different names and nothing is in the way, afterwards every sheet of every document that could be rendered is in the file of its name and number.", "quantifier": "every file system, every list of documents with any numbers of sheets, every renderer that does not read sheets", "why_tests_cant": "trees, documents and sheets are unbounded", "anchors": ["main.go: RenderAll, save, createFilename, CreateDir, IsDir"]}
{"id": "C111", "title": "Flags and commands do what they say", "statement": "Flags before the first other argument are all read, in any of the four ways to write them, the last value counts; render with a file and designs_updated write exactly where they should, and no old sheet survives designs_updated; diff_test tells the number of old sheets whose new sheet of the same name has another content.", "quantifier": "every list of arguments, every file system, every renderer", "why_tests_cant": "argument lists and trees are unbounded", "anchors": ["main.go: main"]}
{"id": "C112", "title": "The server renders the document with the parameters of the request", "statement": "The document is rendered with its parameters overridden by those of the request, at any depth; the answer is the text of the wanted sheet; files are written only if asked for.", "quantifier": "every request, every document and every file system", "why_tests_cant": "requests and documents are unbounded", "anchors": ["main.go: processRequest, renderPlanSet"]}
{"id": "C113", "title": "A parsed document has exactly what its map and its imports say", "statement": "The document has the id and the parameters of its map, one part for each map under parts in this order, each imported drawing as a parameter under its alias (the last one of an alias wins), under each name the custom component of the last import that gives the name, and no others; its map is the one that was read, with the parts as they have been made. A document that names a file is the document in the file with its own entries merged in.", "quantifier": "every document, every collection of files, any number of imports and parts, any nesting", "why_tests_cant": "documents and imports are unbounded; which import wins depends on the whole list", "anchors": ["dom/app_context.go: ParseDocument"]}
{"id": "C114", "title": "What is on the sheets is read as it was drawn", "statement": "Every drawing on every sheet of a document is understood by an SVG reader as the strokes that the components have drawn, if no transform is a join or an offset and gears have teeth; with rounding and overflow there may be no slice and no splitter either.", "quantifier": "every document, any number of parts, any components inside each other at any depth, with any attributes, expressions and variables, any part transformers (splitters and lathes)", "why_tests_cant": "the tree of components, the values of attributes and the variables that components leave behind are unbounded", "anchors": ["dom/planset.go: Init", "dom/part.go: RenderPart, Render", "dom/part_splitter.go", "dom/lathe_part_transformer.go", "components/*.go: Render"]}
{"id": "C115", "title": "Rendering a document does not panic", "statement": "A document whose groups and edges have components, whose numbers of copies are not negative, without nested parts, intercepts, part transformers, joins, offsets and slices is laid out without a panic, and no path is empty.", "quantifier": "every document, any number of parts, any depth, any attributes and variables", "why_tests_cant": "a panic may hide behind any combination of attributes", "anchors": ["dom/planset.go: Init", "dom/part.go: RenderPart", "dom/models.go: SetGlobalVariable", "dom/document.go: FindDocumentContext"]}
{"id": "C116", "title": "Rendering leaves the components as they are, but for their variables", "statement": "After rendering, the tree of components is the same, its maps are changed only at the variables that components set on themselves and on their children, and the global variables only at the names that edges and gears set. Parts, drawings and groups change nothing, so they render the same again.", "quantifier": "every tree of components, every depth, every state of the variables", "why_tests_cant": "the order in which components are rendered, and what they leave, is unbounded", "anchors": ["dom/models.go: SetLocalVariable, SetGlobalVariable", "components/*.go: Render", "dom/*.go: Render"]}
{"id": "C117", "title": "The sheets have exactly what the parts are rendered to", "statement": "If a document is laid out, each of its parts has been rendered in order with the variables that the ones before it left; the sheets together have exactly the rendered parts, under their ids and in order, all of positive size; the text of each sheet is XML with the size and the parts of this sheet.", "quantifier": "every document, every collection of files, any number of parts, copies and sheets", "why_tests_cant": "the number of sheets and the distribution of the parts on them depend on all parts together", "anchors": ["dom/planset.go: Init, addPart, createSvgDoc", "dom/svg_renderer.go: WriteSVG", "main.go: renderPlanSet"]}
{"id": "C118", "title": "A document of outlines becomes sheets with these outlines", "statement": "A document whose parts are drawings of straight lines is parsed, rendered, laid out and written: every outline is on exactly one sheet, with its name, as the lines from the origin through its points in order, moved so that its box begins at the origin; the layout is the one of exact arithmetic, and each sheet is written as XML that says what is on it.", "quantifier": "every document of this form: any size of sheets, any padding that is not negative, any number of parts, drawings and points, any points that are not all on one level or upright line", "why_tests_cant": "the whole program is exercised at once, for documents of any size; tests fix a few documents", "anchors": ["main.go: renderPlanSet", "dom/app_context.go: ParseDocument, MakeComponent, MakePart", "dom/part.go: CreateComponent, RenderPart, Render", "dom/draw_component.go: Render", "dom/planset.go: Init", "dom/svg_renderer.go: Add, WriteSVG"]}
{"id": "C119", "title": "Components of a document draw what their own functions draw", "statement": "What a drawing, gear, part, group, repeat, edge, ring of edges or intercept in a document draws is what the function of that component (C48, C70, C84-C88, C105) makes of its attributes and of what its children draw. The variables that a component sets for its children do not depend on the ones it has set before.", "quantifier": "every component with its attributes and ancestors, every cursor, every set of global variables; the equations for children made of parts, drawings and groups, the statements about successful renderings for all children", "why_tests_cant": "the components are nested to any depth, with any attributes and any variables left by earlier renderings", "anchors": ["dom/draw_component.go: Render", "components/gear.go: Render", "dom/part.go: Render", "dom/group_component.go: Render", "dom/repeat_component.go: Render", "components/basic_edge.go: Render", "components/repeat_edge.go: Render", "components/around.go: Render", "components/xintercept.go: Render"]}
{"id": "C120", "title": "Parts of a document are the copies and pieces that their transformers make", "statement": "The rendered parts of a part are its copies in order, each with its index, its label and a trimmed path, put through the part transformers in order. A splitter and a lathe in a document are the splitter and the lathe (C49-C52) with the values of the attributes; the lathe leaves its measures in the global variables.", "quantifier": "every part, every list of transformers, every path, every fuel; edges that set no global variables, components of a lathe made of parts, drawings and groups", "why_tests_cant": "number of copies, transformers and pieces is not bounded and each transformer works on what the ones before it made", "anchors": ["dom/part.go: RenderPart", "dom/part_splitter.go: TransformPart, transformPart", "dom/lathe_part_transformer.go: TransformPart"]}
{"id": "C121", "title": "Sheets have the size the document says, and hold its parts rendered in turn", "statement": "The size of a sheet, its padding and its units are what the document says, otherwise 20 by 12 with a padding of a tenth, in inches. The sheets of a document are the layout of its parts in order, each rendered with the global variables that the part before it left, and all sheets have the same page.", "quantifier": "every document, every set of global variables", "why_tests_cant": "parts communicate by global variables, for any number of parts", "anchors": ["dom/planset.go: createSvgDoc, Init", "dom/common.go: MustUnits"]}
{"id": "C122", "title": "Elements are found by their ids", "statement": "The element with an id is found from the document and from every component of it, however deep it is, exactly if there is a component with this id; signs @ around the id make no difference. If no two components have the same id, each is found under its own. Of components with the same id the last element and the first part are found, and a component whose id has an @ at an end is never found.", "quantifier": "every document, every id, every component in the document", "why_tests_cant": "the tree is as deep as the document says, and the id is any text", "anchors": ["dom/document.go: FindElementByID, FindPartByID", "dom/param_lookup.go: FindElementByID", "dom/app_context.go: populateElementsByID"]}
{"id": "C123", "title": "Comparing elements of SVG files is equality up to the order of attributes", "statement": "Two elements that have been read from SVG files compare as equal exactly if they have the same name, text and attributes, in whatever order these are written, and their children are equal in the same order, all the way down. The comparison is an equivalence.", "quantifier": "all elements whose attributes are texts under different names, which includes everything that is decoded from any tokens", "why_tests_cant": "trees of any depth with any number of attributes", "anchors": ["parser/svgparser.go: Compare, NewElement, Decode"]}
{"id": "C124", "title": "Packing with the rounding of doubles", "statement": "With IEEE doubles every history of insertions ends; accepted objects get exactly their sizes; an object is refused exactly if a side is zero or no free bin is large enough; after n insertions no object is further outside of the sheet than 4n rounding errors and no two overlap by more than 8n rounding errors; with padding, footprints keep their distances up to 8n+6 rounding errors. For a thousand objects on a sheet within 1000 units this is less than a billionth of a unit. Objects do overlap and stick out by a rounding error on the default sheet.", "quantifier": "all histories of insertions of any length with any sizes that are not negative, all sheets, in every arithmetic with bounded rounding error; IEEE doubles are one", "why_tests_cant": "rounding errors depend on every digit of every size and add up along the history; no run shows the worst case", "anchors": ["binpacking/binpacking.go: Container.Insert, Container.InsertWithPadding, Bin.Insert"]}
{"id": "C125", "title": "Sheets laid out with the rounding of doubles", "statement": "With IEEE doubles Init lays out all parts with positive sides in the range. On every sheet either all parts fit an empty sheet, and each keeps the padding to the sides and twice the padding to every other part up to 8m+6 rounding errors for m parts on the sheet, or there is a single part that fits no sheet, in the corner and not turned. For a thousand parts on sheets up to 1000 units this is less than a millionth of a unit. Every sheet of the plan set is the one that its own parts make of an empty sheet, so the same holds for the rectangles in which the parts are drawn, if none but squares met a free bin of exactly its size.", "quantifier": "all lists of rendered parts of any length with any positive sizes, all sheets and paddings, in every arithmetic with bounded rounding error; IEEE doubles are one", "why_tests_cant": "rounding errors depend on every digit of every size and add up along the layout; no run shows the worst case", "anchors": ["dom/planset.go: PlanSet.Init, PlanSet.addPart", "dom/svg_renderer.go: SVGDocument.Add", "binpacking/binpacking.go: Container.InsertWithPadding"]}
{"id": "C126", "title": "Curves with the rounding of doubles", "statement": "With IEEE doubles and coordinates up to B, the point of a curve at a parameter between 0 and 1 is within 64 half units in the last place of B of the exact point (18 by de Casteljau), the derivative within 180 of the exact slope, the pieces of a split run through the exact curve within 24 and meet exactly, and a section between two parameters runs through the exact curve within 72. For coordinates up to 1000 all of these are below a ten-billionth of a unit.", "quantifier": "all curves whose coordinates are finite doubles up to any B from 1 to 10^100, all parameters that are doubles between 0 and 1", "why_tests_cant": "the error depends on every digit of eight coordinates and of the parameter; a test sees a handful of them and compares with a tolerance", "anchors": ["bezier/bezier.go: FindPoint, DeCasteljau, Derivative, SplitCurve, SplitCurveSection"]}
{"id": "C127", "title": "Transforms and units with the rounding of doubles", "statement": "With IEEE doubles and coordinates up to B, a shifted path draws the shifted strokes, point for point and in the same order, within 3 half units in the last place of B, a path scaled by factors up to S the scaled strokes within 2 half units of SB, and a path under a matrix with entries up to A the mapped strokes within 8 half units of AB, and all coordinates stay finite. Inches converted to millimetres and back are the same within 3 half units.", "quantifier": "all paths of any length with finite coordinates up to any B from 1 to 10^100, all finite shifts, factors and matrices in the bounds, all lengths", "why_tests_cant": "no finite set of paths covers the digits that get lost; only a bound for all of them says that transforms keep a drawing", "anchors": ["transforms/shift.go: ShiftTransform.PathTransform", "transforms/scale.go: ScaleTransform", "transforms/matrix.go: MatrixTransform.PathTransform", "dom/common.go: MMToInch, InchToMM"]}
{"id": "C128", "title": "Path texts with the rounding of doubles", "statement": "With IEEE doubles the text of any path with finite coordinates up to B, written with n decimals, is read as a connected path that draws what SVG draws from the original, within half a unit of the last decimal plus two half units in the last place of B. Writing that path and reading it once more gives the same path to the last digit, as long as B has at most 15 digits with n of them behind the point. Points that are called equal to n decimals differ by at most one unit of the last decimal.", "quantifier": "all paths of any length with finite double coordinates, all numbers of decimals", "why_tests_cant": "printing to decimals and reading decimals to doubles round twice in different bases; only a proof covers every pair of neighbouring doubles and decimals", "anchors": ["path/path.go: PathImpl.SvgString, Point.EqualsPrecision", "path/path_parser.go: ParsePathFromSvg"]}
{"id": "C129", "title": "Functions in expressions", "statement": "distance and angle have a value exactly for two points, which may be given as four numbers, as lists with together four numbers, or as two maps with x and y; distance is the Euclidean distance and angle the direction in degrees, more than -180 and at most 180. mmToInch and inchToMM take exactly one number, divide and multiply by 25.4, and undo each other. sqrt is the square root of its first argument, whatever follows; without an argument it panics, and no other function does.", "quantifier": "all expressions, all arguments (values of any kind, nested lists, texts that are expressions themselves), all real numbers", "why_tests_cant": "arguments may be of any kind and nesting, and each may be an expression of its own", "anchors": ["dom/expression_eval.go: pllExpression.evalExp", "path/util.go: Distance", "path/path.go: LineSegment.Angle", "dom/common.go: MMToInch, InchToMM"]}
{"id": "C130", "title": "Boxes and places of straight drawings with the rounding of doubles", "statement": "With IEEE doubles the box of a drawing of straight strokes is exact: nothing is rounded in it. Trimming the whitespace puts the top left corner of the box exactly at zero and moves every point of the drawing by the old corner up to three half units in the last place. Each of the eleven handles is found up to five half units in the last place, and moving a drawing by a handle to a target leaves the handle within 25 half units in the last place of the target. This does not depend on any function of package math.", "quantifier": "all paths whose drawn strokes are straight, all finite doubles up to 10^99, all handles, all targets, whatever the functions of package math compute", "why_tests_cant": "errors of single roundings add up over the operations; which corner is at zero after rounding depends on the values", "anchors": ["path/util.go: BoundingBoxTrimWhitespace, BoundingBoxWithWhitespace", "path/attributes.go: PointPathAttribute", "transforms/move.go: MoveTransform", "transforms/trim_whitespace.go: TrimWhitespaceTransform"]}
{"id": "C131", "title": "Scaling a curve with distances that change along it", "statement": "A curve can be scaled by a distance function exactly when the directions at its ends are not parallel. The ends are moved square to the curve by the distances at 0 and 1, to the left for positive ones. The control points are moved along the lines from the point where the normals at the ends meet, by the distances at 1/3 and 2/3: away from it for positive distances if the first control point is on the positive side of the line from start to end (or straight behind the start), and towards it otherwise. The direction at the ends is not kept, though the code says so.", "quantifier": "all curves whose control points are not on the ends, all finite distance functions", "why_tests_cant": "the result depends on real numbers and on a function as argument; the code has no test of it", "anchors": ["bezier/bezier.go: ScaleByFunc, _scale, IsClockwise, angle"]}
{"id": "C132", "title": "Helper functions", "statement": "StringElipses keeps a text that is short enough and otherwise returns a beginning of it and three dots, exactly as long as the limit in bytes; it panics for limits below three, and it may cut a character in half. StringArrayDeDup keeps the first of equal entries, in order. Tail, TrimLast and TrimFirst take a list apart; PathCursor is the end of the last segment and panics for an empty path. PointInBoundingBox includes the border. NewPointRounded rounds to the nearest thousandth and is idempotent. ContainsAll, the string lists and the defaults of a map, and a log message as a map, are what their names say.", "quantifier": "all texts, lists, paths, points, maps, keys and limits", "why_tests_cant": "texts, lists and limits of any size; limits below three and texts with several bytes per character are untested", "anchors": ["path/util.go: StringElipses, StringArrayDeDup, Tail, TrimLast, TrimFirst, PathCursor, PointInBoundingBox", "path/path.go: NewPointRounded", "path/segment_operators.go: DefaultSegmentOperators.Move", "dynmap/dynmap.go: ContainsAll, GetStringSlice, GetStringSliceSplit, Must, MustFloat64, MustBool, MustStringSlice", "dynmap/typecast.go: MustString", "util/logging.go: LogLevel.String, LogMessage.ToDynMap"]}
{"id": "C133", "title": "Written sheets with the rounding of doubles", "statement": "With IEEE doubles, the text of a sheet is XML with the size of the sheet and one group for each part. Read by an SVG reader, the attributes of a group show the drawing of the part where the layout puts it, stroke for stroke and point for point: up to half a thousandth for the place, half a unit of the last decimal for the path, and a few half units in the last place of the largest coordinate. So parts whose rectangles are apart are shown apart, parts whose rectangles are on the sheet are shown on the sheet, and parts laid out by the program are shown with the padding to the sides of the sheet and twice the padding between them, up to this. The same holds for every sheet of a whole plan set, on which a part that fits no sheet is alone.", "quantifier": "all sheets and parts with finite coordinates, any number of decimals, any functions of package math; for the layout at most a thousand parts on a sheet of at most 1000 by 1000", "why_tests_cant": "rounding errors of addition, of decimal output and of reading add up; tests compare files of a few drawings", "anchors": ["dom/svg_renderer.go: docRenderable.render, WriteSVG, Add", "binpacking/binpacking.go: InsertWithPadding, Insert", "path/path.go: SvgString", "path/path_parser.go: ParsePathFromSvg"]}
{"id": "C134", "title": "Small functions", "statement": "(a) Whatever was inserted before, the flag of a bin with children says whether its children are one below the other; otherwise they are side by side, and in both cases they make up the bin. (b) The position at which a strip is split is a half or a third of its width, and the piece before it is shorter than a side of the sheet whenever a third of the strip is; the rest need not be. (c) The short text of a point is that of the rounded point. (d) Removing duplicates from numbers keeps every number once and in order, inserting adds a number only if it is absent; with doubles NaN is never found. (e) Measuring a component is an error for every component. (f) The copy of a map has the same content at every depth, a map is empty exactly when no key has a value, a key has a map exactly when its value can be taken for one, and conversions fall back to their default exactly when the value cannot be converted. (g) The typed reads of a parameter give the value of the nearest definition, the value of an expression, or the default.", "quantifier": "all insertions with sides that are not negative, all widths, points, lists of numbers, maps, keys, chains of elements and parameters", "why_tests_cant": "the functions are called, if at all, with a few values; the flag of a split depends on all insertions before", "anchors": ["binpacking/binpacking.go: IsHorizontalSplit", "dom/planset.go: positionForSplit", "path/path.go: StringRounded", "path/util.go: Float64ArrayDeDup, Float64ArrayInsertIfAbsent", "dom/models.go: Measure", "dynmap/dynmap.go: ToMap, IsEmpty, ContainsDynMap", "dynmap/typecast.go: MustBool, MustInt, IsDynMapConvertable", "dom/param_lookup.go: BasicParamLookerUpper"]}
{"id": "C135", "title": "Deduplication removes strokes only in pairs that run forth and back", "statement": "Whenever deduplication succeeds, the strokes of the result are those of the path without pairs of a stroke and the next one that prints as the same stroke backwards, such pairs being taken out again and again, so that an even number of strokes disappears; no such pair without a move between its strokes is left. A path in which no stroke runs back over the one before it keeps every stroke, and deduplication then succeeds whether or not the path begins with a move. After reordering, the strokes are a rearrangement of those of the path, each as it was or backwards, without such pairs.", "quantifier": "all paths with lines, curves and moves, all numbers of decimals", "why_tests_cant": "tests use one path and look at its text; nested pairs, nearly equal coordinates and pairs that arise only after another was removed are not among them", "anchors": ["transforms/dedup.go: DedupSegmentsTransform", "transforms/cleanup.go: CleanupTransform", "transforms/path_reorder.go: ReorderTransform", "path/path.go: UniqueString"]}
{"id": "C136", "title": "A reader of the written files sees every outline once, in its place", "statement": "Take the files that are written for a document of outlines, as any reader of XML, of SVG path data and of SVG transforms understands them. Every outline is seen exactly once, under its name: its lines in their order, shifted or turned by a quarter and shifted, with every end within a thousandth of its place. If no outline but squares ever meets a free bin of exactly its padded size, then on every sheet with more than one outline all of them keep the padding to the sides of the sheet up to a thousandth, and twice the padding to each other up to two thousandths. Every sheet of a plan set is the one that its own parts make of an empty sheet.", "quantifier": "every document of outlines: any sheet size, any padding that is not negative, any number of outlines, drawings and points, any names without markup", "why_tests_cant": "tests look at one written text or at one layout; what a reader makes of the whole file, for all documents, is not tested", "anchors": ["dom/svg_renderer.go: Add, WriteSVG, render", "dom/planset.go: Init, addPart", "dom/part.go: RenderPart", "path/path.go: SvgString", "main.go: renderPlanSet"]}
{"id": "C137", "title": "With doubles, a reader of the written files sees every outline once, in its place", "statement": "Take the files that the program, computing with IEEE doubles, writes for a document of outlines, as any reader of XML, of SVG path data and of SVG transforms understands them. Every outline is seen exactly once, under its name: its lines in their order, shifted or turned by a quarter and shifted, with every point within a thousandth and a millionth of its place. If no outline but squares ever meets a free bin of exactly its padded size, then on every sheet with more than one outline all of them keep the padding to the sides of the sheet up to a thousandth and two millionths, and twice the padding to each other up to two thousandths and two millionths.", "quantifier": "every document of at most a thousand outlines, with any drawings and any finite coordinates up to 600, any names without markup, any sheet size and padding up to 1000, and any functions of package math", "why_tests_cant": "rounding errors of drawing, trimming, layout, output and reading add up; no run shows the worst case, and tests look at a few files", "anchors": ["dom/svg_renderer.go: SVGDocument, start, WriteSVG, render, Add", "dom/planset.go: Init, addPart", "dom/part.go: RenderPart, Render", "transforms/trim_whitespace.go: TrimWhitespaceTransform", "path/path.go: SvgString", "path/path_parser.go: ParsePathFromSvg", "main.go: renderPlanSet, save"]}
{"id": "C138", "title": "A drawing of relative commands moves with its first point", "statement": "If a drawing begins with a move and then uses only relative commands (relative moves, lines and curves, smooth curves, lines by angle, circles and rectangles), then beginning it at another point gives exactly the same strokes, all moved by the difference of the two points, and the pen ends moved by it as well.", "quantifier": "every list of such commands of any length and every two starting points", "why_tests_cant": "any number of commands in any order; a command that mixes absolute and relative coordinates is only seen when the drawing starts elsewhere", "anchors": ["path/draw.go: RelMoveTo, RelLineTo, RelHLineTo, RelVLineTo, LineByAngle, RelCurveTo, RelSmoothCurveTo, SmoothCurveTo, Circle, Rect, ToAbsPosition"]}
{"id": "C139", "title": "What a reader of the written files sees of a document of drawings with all commands of the pen", "statement": "A document whose parts are drawings with moves, lines and curves (absolute, relative and smooth), lines by angle, rectangles and circles is written to files in which any reader of XML and SVG sees every part exactly once, under its name: exactly its lines and curves, as a pen following the commands draws them, in their order, moved by one shift or a quarter turn and a shift, each point within a thousandth of its place. On sheets with more than one part they keep the padding to the sides and twice the padding to each other (up to one and two thousandths), if no part but squares meets a free bin of exactly its padded size.", "quantifier": "every size of sheet, every number of parts, drawings and commands with any finite numbers below 2^62, parts with an extent in both directions, every reader of the written text", "why_tests_cant": "the whole way from the document to the files for documents of any length; tests compare single outputs", "anchors": ["path/draw.go: Draw", "dom/draw_component.go: Render", "dom/svg_renderer.go: SVGDocument, start, WriteSVG, render, Add", "dom/planset.go: Init, addPart", "dom/part.go: RenderPart, Render", "transforms/trim_whitespace.go: TrimWhitespaceTransform", "main.go: renderPlanSet, save", "path/segment_operators.go: BoundingBox"]}
{"id": "C140", "title": "What a reader of the written files sees of any document that is rendered finitely", "statement": "Take any document whose sheets have one size and unit and whose parts, of any components, are rendered to finite drawings within their measured sizes, with texts without markup and labels that have a place. Then it is written to files in which any reader of XML and SVG sees everything the parts were rendered to exactly once, under the id of the part and with its label: all lines and curves in their order, moved by one shift or a quarter turn and a shift, each point within a thousandth of its place. On sheets with more than one drawing they keep the padding to the sides and twice the padding to each other (up to one and two thousandths), if nothing but squares meets a free bin of exactly its padded size. A part without part transformers is rendered to as many copies as repeat.total says, each the trimmed and measured drawing of its components.", "quantifier": "every document, every component but those with a join, offset or slice among their transforms and with part transformers other than lathes, every size of sheet, every number of parts and copies, every reader of the written text", "why_tests_cant": "the whole way from rendered parts to the files for documents of any size; tests compare single outputs", "anchors": ["dom/svg_renderer.go: SVGDocument, start, WriteSVG, render, Add", "dom/planset.go: Init, addPart", "dom/part.go: RenderPart, Render", "transforms/trim_whitespace.go: TrimWhitespaceTransform", "main.go: renderPlanSet, save"]}
{"id": "C141", "title": "What a reader of the written files sees of drawings with labels and copies", "statement": "A document whose parts are drawings as in C139 with a label text and a number of copies is written to files in which any reader of XML and SVG sees every drawing exactly as often as it has copies, under its name, with its lines and curves as in C139, and with its label: the text itself if there is one copy, the text, a colon and the number of the copy from zero if there are several, and no label if the text is empty.", "quantifier": "every size of sheet, every number of parts, drawings, commands and copies (none included), coordinates below 2^62, parts with an extent in both directions, label texts without markup and without a dot that are not the name of an attribute, every reader of the written text", "why_tests_cant": "needs the whole way from the document to the files, with labels and copies at once, for documents of any length", "anchors": ["path/draw.go: Draw", "dom/draw_component.go: Render", "dom/svg_renderer.go: SVGDocument, start, WriteSVG, render, Add", "dom/planset.go: Init, addPart", "dom/part.go: RenderPart, Render", "transforms/trim_whitespace.go: TrimWhitespaceTransform", "main.go: renderPlanSet, save"]}
{"id": "C142", "title": "Writing numbers as expressions of parameters does not change the files", "statement": "Take two documents of drawings with labels and copies as in C141 in which every number - coordinates and lengths of commands, the number of copies, the size and the padding of the sheets - is written as it is or as a text that is an expression of the parameters of the document, which are numbers or expressions of other parameters. If the numbers are worth the same in both documents, both are written to the same files, whatever the parameters are. In particular the files are those of the document with the values in place of the expressions, and any reader of them sees the drawings with these values.", "quantifier": "every parser and every operators of expressions, every set of parameters that are named unlike the attributes and have numbers or texts, every number of parts, drawings, commands and copies; expressions with at most twenty references", "why_tests_cant": "needs the lookup of every attribute through command, drawing, part and document and the evaluation of any expression, for documents of any length; tests evaluate single expressions", "anchors": ["dom/param_lookup.go: Attr.lookup, Float64, ToPoint, localLookup", "dom/expression_eval.go: EvalExpression", "dom/document.go", "dom/draw_component.go: Render", "dom/part.go: RenderPart", "dom/planset.go"]}
{"id": "C143", "title": "A line and a curve are joined where they meet", "statement": "Let a line be followed by a cubic curve, or a curve by a line, with a gap between them, and let the line, drawn out in both directions, meet the curve. The join draws the line to (from) the meeting that is nearest to the end of the first stroke, and keeps the part of the curve after (before) this meeting: the kept curve retraces the original curve from (to) there; if the meeting looks like an end of the curve to seven decimals the curve is kept whole. When no meeting looks like an end the two joined strokes hang together.", "quantifier": "every line with two different ends, every cubic curve that is generic for the line (the equation of their meetings is not degenerate to the precision of the root finder), every precision", "why_tests_cant": "needs the real roots of every cubic equation and the choice of the nearest of them; tests join a few pictures", "anchors": ["path/segment_operators.go: JoinLineAndCurve, JoinCurveAndLine, Join, Split, IntersectProjectedLine, getTfromPoint", "bezier/bezier.go: IntersectsLine, Split"]}
{"id": "C144", "title": "Cutting a curve with a knife", "statement": "Cutting a cubic curve with a knife ends. The pieces, in order, draw the whole curve once: the first begins at its start, each goes on where the last ended, and the last ends at its end; where one piece changes to the next the curve is at the knife, up to the precision of the root finder. A generic curve that crosses a knife that is not drawn downwards, away from the ends of the curve, is cut into at least two pieces.", "quantifier": "every cubic curve and every knife with two different ends, every precision; number of cuts not bounded", "why_tests_cant": "the recursion cuts the rest again after every cut; that it ends needs a measure that decreases by rounding bounds, which no test shows", "anchors": ["path/util.go: KnifeCut", "path/segment_operators.go: Intersect, Split", "bezier/bezier.go: IntersectsLine, Split"]}
{"id": "C145", "title": "Cutting off everything below a height, with curves", "statement": "Take a drawing of lines and cubic curves that reaches to the right of where the knife begins. The cut at a height ends. Every stroke is cut in pieces: a line whole or at exactly the height, a curve in pieces that draw it once and change within 1e-6 of the height. What is left is, in order, some of the pieces, up to starts that print the same. A piece that is left out has no point above the height, and a piece that is left in has no point below it or has a point above it, up to the precision. So every point of a curve that is above the height by more than the precision is still drawn, and every point of a curve in the result is a point of the drawing.", "quantifier": "every drawing of lines and curves with control points below 2^63, every height and every two precisions; number of strokes and cuts not bounded", "why_tests_cant": "the filter decides by control points and the box of each piece, for pieces that depend on all the cuts before; tests cut a few pictures", "anchors": ["transforms/slice.go: HSliceTransform.PathTransform", "path/util.go: KnifeCut", "path/path.go: BoundingBoxWithWhitespace", "bezier/bezier.go: Box, IntersectsLine, Split"]}
{"id": "C146", "title": "Where two strokes cross", "statement": "The points given for the crossings of two strokes are crossings. Two lines: at most one point, on both straight lines and in both boxes up to the precision; if the lines cross and their slopes do not print the same, the crossing is given. A line and a curve, in either order: points of the curve, at the parameters that are given with them, near the line. Two curves: the search ends, and the points are points of the first curve at the parameters given with them, which are to five decimals those of points nearer than 1 to the second curve. A move crosses nothing.", "quantifier": "every pair of strokes with different ends (lines exactly vertical or not vertical to the precision), curves with control points below 2^63 when both are curves, every precision", "why_tests_cant": "real-valued geometry with special cases for vertical and parallel lines and a recursive search for curves", "anchors": ["path/segment_operators.go: Intersect, IntersectLine, IntersectCurve, tP", "path/util.go: LineIntersection, PrecisionPointInBoundingBox", "bezier/bezier.go: IntersectsLine, IntersectsCurve"]}
{"id": "C147", "title": "Intercepts of a drawing with curves", "statement": "The intercepts of a drawing of lines and cubic curves with a height are ordered by their abscissas. Each is a point of a curve within 1e-6 of the height, or at exactly the height on a line of the drawing up to the precision. Every steep line that crosses the height to the right of the knife's start is met, and of a curve that is generic for the height every point at this height that is not to the left of the knife's start is found, exactly.", "quantifier": "every drawing of lines and curves that start below 2^63 and that reaches to the right of the knife's start, every height, every precision", "why_tests_cant": "needs all real roots of every cubic equation and a box that covers the whole drawing; tests look at single pictures", "anchors": ["path/util.go: HorizontalIntercepts", "path/segment_operators.go: Intersect, IntersectLine", "bezier/bezier.go: IntersectsLine, Roots"]}
{"id": "C148", "title": "Offsetting a rectangle", "statement": "The offset of a rectangle with sides along the axes, drawn as one closed line from any corner and either way round, is one closed line around the rectangle with every side moved by the distance: outwards when the result should be larger, inwards when it should be smaller. The corners are those of the moved rectangle, rounded to seven decimals. Its SVG text is read back as drawn. When no size is asked for, the side is the one given by the sign of the distance and the direction in which the rectangle is drawn.", "quantifier": "every rectangle, every starting corner and direction, every distance whose amount is above the precisions and less than half of the width and of the height (up to the precision and 1e-6), every precision", "why_tests_cant": "the four offset lines are printed, read, deduplicated, reordered and joined by comparing distances; a wrong choice in any of these steps depends on the proportions of the rectangle", "anchors": ["transforms/offset.go: OffsetTransform.PathTransform", "transforms/join.go: JoinTransform.PathTransform, join", "transforms/reorder.go: ReorderTransform.PathTransform", "transforms/dedup.go: DedupSegmentsTransform.PathTransform", "path/segment_operators.go: Offset, Join"]}
{"id": "C149", "title": "What a reader sees of a document of plates", "statement": "Whoever reads the files of a document whose parts are rectangles drawn with the pen, each made larger or smaller by an offset, sees every plate exactly once, with its name and without a label, as one closed line around the rectangle with every side moved out (in) by the distance, up to half of 1e-7 and the 1/1000 of the files, shifted or turned as a whole; on sheets with several plates these lie within the padding and at least twice the padding apart.", "quantifier": "every list of plates, every way of drawing the rectangle with straight lines from the origin, every distance above the precision and below half of the sides, every sheet with a padding that is not negative, every number of files (the distances: drawings that do not meet a free bin of exactly their padded size)", "why_tests_cant": "the claim joins the parser, the attributes, the offset, the join, the layout, the writer and a reader of the files, for all sizes and numbers of plates", "anchors": ["dom/app_context.go: ParseDocument, MakeTransforms", "dom/transform_factories.go: OffsetTransformFactory", "transforms/offset.go: OffsetTransform.PathTransform", "dom/draw_component.go: Render", "dom/part.go: RenderPart, Render", "dom/planset.go: Init, addPart", "dom/svg_renderer.go: WriteSVG, render"]}
{"id": "C150", "title": "What a reader sees of a document of scenes", "statement": "Whoever reads the files of a document whose parts are groups of drawings and of other groups, nested as deep as one likes, each drawing and each group with any matrices, scalings, rotations about the origin and moves, sees every part exactly once, with its name and without a label: all strokes of its drawings in their order, each mapped by the transforms of its drawing and then of every group around it, from the inside to the outside, where every drawing begins where the transformed one before it has ended; the whole is shifted or turned, up to 1/1000. A rendered scene gives these strokes and this end from any start.", "quantifier": "every list of parts, every tree of groups of drawings with any commands of the pen, every list of transforms at every node, every sheet with a padding that is not negative, every number of files (depth up to the fuel; the distances: drawings that do not meet a free bin of exactly their padded size)", "why_tests_cant": "trees of any depth with transforms at every level: the claim joins the parser, the attributes looked up through all ancestors, the transforms, the joins, the layout, the writer and a reader", "anchors": ["dom/app_context.go: ParseDocument, MakeComponent, MakeTransforms", "dom/group_component.go: CreateComponent, Render", "dom/draw_component.go: Render", "dom/models.go: HandleTransforms", "dom/param_lookup.go: attrLookup", "transforms/matrix.go: MatrixTransform.PathTransform", "transforms/scale.go: ScaleTransform.PathTransform", "transforms/rotate.go: RotateTransform.PathTransform", "transforms/move.go: MoveTransform.PathTransform", "transforms/join.go: SimpleJoin.JoinPaths"]}
{"id": "C151", "title": "The parts of a finger joint fit together", "statement": "The shipped finger joint plug, socket and holes, drawn along the same line with the same finger width, height, space and paddings, fit: all have as many teeth as fit between the paddings, in the middle of the edge, at the same places. The outline of the plug in the coordinates of the edge is the mirror image of that of the socket, so over every place of the edge that is not the side of a finger exactly one of the two boards reaches through the joint; there is one hole per finger, as wide as the finger. All teeth are between the paddings. Room for less than one finger is an error. If the paddings take up the whole edge there is one finger nevertheless, which may stick out of the edge.", "quantifier": "every edge of any length, direction and place, every finger width above zero, every height, every space and every padding that is not negative (fewer than 2^62 fingers)", "why_tests_cant": "any number of fingers and any real sizes; the positions are computed from floors of quotients, boxes of joined paths and widths left over", "anchors": ["designs/joints/finger_joint_plug.hfd: repeatable, left, right", "designs/joints/finger_joint_socket.hfd: repeatable, left, right", "designs/joints/finger_joint_holes.hfd: repeatable, left, right", "components/repeat_edge.go: RepeatEdgeComponent.Render", "dom/repeat_component.go: RepeatRender", "dom/draw_component.go: Render", "path/util.go: BoundingBoxWithWhitespace"]}
{"id": "C152", "title": "Joining leaves an unbroken drawing alone, though the pen is lifted", "statement": "If each stroke of a path begins where the stroke before it ended, and none goes back over the one before it, the transform join draws exactly the same strokes, in the same order and direction, whatever moves lie between the strokes and before them: it may lift the pen, move it away and bring it back any number of times. Without closing always, with closing if the drawing ends where it begins. So the shipped finger joint plug and socket, whose pieces each begin with moves of their own, keep the outline of C151 after their transform join, as long as the fingers are at least two and the spaces at least four units of the last decimal in size.", "quantifier": "every finite path that begins with a move and ends with a stroke, of any number of segments, every precision; every edge, finger width, height, space and padding", "why_tests_cant": "the number of moves between the strokes is unbounded, and two passes are needed to remove them; the drawings of the tests have one run after one move", "anchors": ["transforms/join.go: JoinTransform.join, JoinTransform.PathTransform", "transforms/dedup.go: doTransform, PathTransform", "transforms/cleanup.go: PathTransform", "transforms/path_reorder.go: PathTransform", "components/repeat_edge.go: RepeatEdgeComponent.Render", "designs/joints/finger_joint_plug.hfd: transforms", "designs/joints/finger_joint_socket.hfd: transforms"]}
{"id": "C153", "title": "Whoever reads the files of a document of boards with finger joints sees the combs", "statement": "A document whose parts are boards with finger joints, written as in the shipped designs (type repeat_edge, the parameters finger_width, finger_height and finger_space, the expressions in the commands of the three pieces, the paddings of 1.1 finger heights, the handles and the transform join), gives files in which a reader of SVG sees every board once, under its name, and as its lines exactly the combs of its joints: from the start to the end of each edge, with as many fingers as fit between the paddings, of the given width, height and space, plugs and sockets as the mirror image of each other. A board is only shifted or turned as a whole, and the boards on a sheet are kept apart.", "quantifier": "every list of boards, every number of joints on a board, every start and end of an edge, all finger widths above zero, heights from 0.002 and spaces from 0.004, every number of fingers from one on; every expression library that reads the five expressions of the designs as they are meant", "why_tests_cant": "joins the parser of documents, the lookup of parameters through two levels, the evaluation of expressions, repetition, placing, joining, packing and writing; the number of joints, fingers and boards is unbounded", "anchors": ["components/repeat_edge.go: RepeatEdgeComponent.Render", "dom/repeat_component.go: Render", "dom/param_lookup.go: Lookup, localLookup, Point, Float64", "dom/expression_eval.go: EvalExpression", "transforms/join.go: TransformPath", "designs/joints/finger_joint_plug.hfd", "designs/joints/finger_joint_socket.hfd", "dom/planset.go: Init", "dom/svg_renderer.go: WriteSVG"]}
{"id": "C154", "title": "A drawing has its size on paper", "statement": "Each file that the command render writes is a sheet whose width and height, read as lengths of SVG, are as many times the unit of the document as its view box has units: so one unit of a drawing is one millimetre on paper if the document names millimetres (mm or millimeters, in capital letters or not) and one inch otherwise, and the sheet has the size that the document gives, up to half a thousandth of a unit.", "quantifier": "every document, every size of the sheet, every word for the units", "why_tests_cant": "joins reading the document, choosing the units, and the texts of three attributes; a wrong unit is only seen on paper", "anchors": ["dom/planset.go: createSvgDoc", "dom/common.go: Abv, NewUnits, MustUnits", "dom/svg_renderer.go: NewSVGDocument, SVGDocument.Write"]}
{"id": "C155", "title": "Panels that mix drawings, finger joints, rows of holes, gears, tab joints, straight edges, screw holes and svg edges are seen in the files", "statement": "A row of holes written as in the shipped design finger_joint_holes is rendered to its holes, wherever the cursor is: as many rectangles as a plug along the same line has fingers, each at the place of a finger. Whoever reads the files of a document of panels sees every panel once, with its name: its drawings and groups of drawings, the combs of its finger joints, the holes of its rows, its gears, its tab joints, its straight edges, its screw holes and its edges that are drawn as an svg text, shifted or turned as a whole, and the panels are kept apart.", "quantifier": "every document of any number of panels with any number of drawings, nested groups, joints and rows in any order, all sizes, all lines from a start to another end, every library of expressions that reads the expressions of the designs as they are meant", "why_tests_cant": "joins the variables of a custom component, the counting of the holes, the placement along a line, the cursor that is handed from component to component, packing and writing; a test shows one panel", "anchors": ["designs/joints/finger_joint_holes.hfd", "designs/joints/finger_joint_plug.hfd", "components/repeat_edge.go: Render", "dom/part.go: Render", "dom/planset.go: createSvgDoc"]}
{"id": "C156", "title": "A gear in a document is the gear that is meant", "statement": "A gear in a document is rendered, wherever the cursor is, to the closed polygon of involute teeth that its numbers say, and where a number is left out to that of ten teeth, half a unit of tooth width, 20 degrees, and a hundredth of clearance and backlash; nothing of it is outside of its outer circle.", "quantifier": "every gear with any of the five numbers given or left out, in every part of every document of panels, all sizes that make sense, every number of teeth below 2^63", "why_tests_cant": "joins the lookup of five attributes with their defaults and the geometry of involutes; a test sees one gear", "anchors": ["components/gear.go: CreateComponent, Render", "dom/param_lookup.go: MustInt, MustFloat64"]}
{"id": "C157", "title": "Tab joints fit", "statement": "A tab joint written as in the shipped designs tab_joint_plug and tab_joint_socket is rendered, wherever the cursor is, to a straight edge with one tab, or one notch, exactly in its middle. A plug and a socket along the same line fit: turned over, one is the other, and everywhere between the start and the end, away from the sides of the tab, one is at the height of the tab exactly where the other is not.", "quantifier": "every width and height of the tab, every start and end that are apart, every place of the cursor, in every part of every document of panels", "why_tests_cant": "joins the text of the shipped designs, the points given as texts, the lookup of the width that the edge sets for its children and the laying of the edge along a line; a test sees one joint", "anchors": ["components/basic_edge.go: Render", "designs/joints/tab_joint_plug.hfd: commands", "designs/joints/tab_joint_socket.hfd: commands", "dom/param_lookup.go: ToPoint"]}
{"id": "C158", "title": "Straight edges make unbroken outlines", "statement": "A straight edge written as in the shipped design line draws the line from its start to its end and nothing else, and leaves the pen at its end; without a start it starts where the pen is. So a part of straight edges, of which only the first has a start, is the outline through their ends, and whoever reads the files of a document of such parts sees each outline once, with its name, the lines in their order, shifted or turned as a whole.", "quantifier": "every list of corners of any length in which no corner is the one before it, every number of outlines, every size of sheet, every place of the cursor", "why_tests_cant": "the place of the pen is handed from one component to the next through the last segment of a path that has been turned and shifted; a test sees one outline", "anchors": ["components/basic_edge.go: Render", "designs/joints/line.hfd: commands", "dom/group_component.go: Render", "dom/part.go: RenderPart"]}
{"id": "C159", "title": "Screw holes are as wide as they say", "statement": "Screw holes written as in the shipped designs screw_holes_pair and screw_holes_rect are rendered, wherever the cursor is, to two or four circles of the diameter that is given; from outer edge to outer edge they are exactly as wide and as high as the parameters say, as the comments in the designs promise. Every hole is in the square of its diameter, and round to 0.03% of its radius. Whoever reads the files of a document of plates with such holes sees every plate once, with its name.", "quantifier": "every width, height and diameter such that a hole is not larger than the whole, every number of groups and plates, every size of sheet, every place of the cursor", "why_tests_cant": "the sizes are real numbers, and the extent of a drawing of curves is a statement about all of their points", "anchors": ["dom/draw_component.go: Render", "path/draw.go: Draw.Circle", "designs/common/screw_holes_pair.hfd: commands", "designs/common/screw_holes_rect.hfd: commands"]}
{"id": "C160", "title": "Edges drawn as an svg text lead from their start to their end", "statement": "An edge written as in the shipped design svg_edge is rendered, wherever the cursor is, to the strokes of its svg text, all turned and scaled by one similarity: the first stroke starts where the edge starts and the last ends where the edge ends. Whoever reads the files of a document of plates with such edges sees every plate once, with its name.", "quantifier": "every svg text that begins with M and leads to another point than it starts at, every start and end of the edge that differ, every number of edges and plates, every size of sheet, every place of the cursor", "why_tests_cant": "the texts, places and sizes are unbounded, and two transformations with square roots and angles have to cancel exactly", "anchors": ["components/basic_edge.go: Render", "dom/draw_component.go: svgRotateScaleTo", "transforms/rotate_scale.go: RotateScaleTransform.PathTransform", "designs/joints/svg_edge.hfd: commands"]}
{"id": "C161", "title": "Rectangles are as large as they say", "statement": "A rectangle written as in the shipped design rectangle, whose attributes have the names of the parameters they stand for, is rendered to its four sides: it begins where the pen is, is as wide and as high as the parameters say, and brings the pen back, so that rectangles in one part share a corner. Whoever reads the files of a document of plates of rectangles sees every plate once, with its name.", "quantifier": "every width and height, every number of rectangles and plates, every size of sheet, every place of the cursor", "why_tests_cant": "the sizes are real numbers and the documents have any number of plates; that an attribute may be called like the parameter it refers to depends on the order of lookups", "anchors": ["dom/draw_component.go: Render", "dom/param_lookup.go: Attr.lookup", "path/draw.go: Draw.Rect", "designs/common/rectangle.hfd: commands"]}
{"id": "C162", "title": "The hole is in the middle", "statement": "Whatever is moved by the handle $MIDDLE_MIDDLE to half the width and half the height of a rectangle has the same margin to the left as to the right and above as below. A rectangle that is drawn wherever the cursor is and is moved like this begins at half the difference of the sizes and keeps its four sides.", "quantifier": "every path with strokes (curves that start below 2^63), every width and height, every place of the cursor", "why_tests_cant": "the drawings and sizes are arbitrary real geometry; a test looks at one hole", "anchors": ["transforms/move.go: MoveTransform.PathTransform", "dom/transform_factories.go: MoveTransformFactory", "dom/models.go: HandleTransforms", "designs/common/rectangle_with_center_hole.hfd: handle_hole"]}
