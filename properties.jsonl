{"id": "C01", "title": "Pipeline output is the composed stage function applied to the inputs, in feed order", "statement": "For a Pipeline whose elements complete every datum at the first attempt, after any interleaving of feed, feedMany, processStage, process/processToStage and extract calls, the data extracted so far, followed by what is still queued (each queued datum pushed through the stages it has not yet seen), is exactly the composed stage function mapped over the inputs in the order they were fed: nothing is lost, duplicated or reordered.", "quantifier": "every list of stage functions, every finite sequence of feed/feedMany/processStage/processToStage/extract calls (including calls that raise IndexError on an empty queue), every data", "why_tests_cant": "the interleaving of feeds, stage runs and extracts is unbounded; a test fixes one schedule", "anchors": ["astropysics/pipeline.py:Pipeline.feed", "astropysics/pipeline.py:Pipeline.feedMany", "astropysics/pipeline.py:Pipeline.processStage", "astropysics/pipeline.py:Pipeline.processToStage", "astropysics/pipeline.py:Pipeline.extract"]}
{"id": "C02", "title": "Pipeline keeps one input queue per stage plus one output queue under every history", "statement": "After any history of addElement, removeElement, feed, process, extract, clear calls with in-range or out-of-range stage numbers, a Pipeline with n elements has exactly n input queues, n retry counters and one output queue (so each stage number 0..n-1 can be fed from and processed).", "quantifier": "every finite operation history, every stage number including negative and too large ones", "why_tests_cant": "invariant over unbounded histories and all (also negative) Python indices", "anchors": ["astropysics/pipeline.py:Pipeline.addElement", "astropysics/pipeline.py:Pipeline.removeElement", "astropysics/pipeline.py:Pipeline.__init__"]}
{"id": "C03", "title": "addElement pushes later stages forward along with their own data", "statement": "addElement(k, e) on a pipeline of n elements puts e where Python's list.insert puts it and keeps the order of the others, for every integer k. Every existing element keeps exactly the data waiting for it, e gets an empty input queue and the output queue is untouched exactly if 0<=k<=n or k<=-n-1 or nothing waits at the place where e goes; in the other cases (negative or too large k) e is handed the data waiting there, and nothing is lost.", "quantifier": "every pipeline state, every element and every integer stage number", "why_tests_cant": "ranges over all queue contents and all k; Python's list.insert clamps silently so no exception reveals a misalignment", "anchors": ["astropysics/pipeline.py:Pipeline.addElement"]}
{"id": "C04", "title": "removeElement(keepdata=True) loses nothing and keeps arrival order", "statement": "removeElement(k, keepdata) raises IndexError without effect unless -n<=k<n; otherwise it removes and returns exactly the element Python's list.pop takes. For k>=0 the data that waited for it join the next stage's queue behind everything already waiting there (keepdata=True) or are dropped (False) and all other queues are unchanged; for k<0 the same happens with the two queues exchanged (the next stage's, or the output's, data join or are dropped).", "quantifier": "every pipeline state and every integer stage number", "why_tests_cant": "all queue contents and lengths; the deque rotate trick is only visible with several data in both queues", "anchors": ["astropysics/pipeline.py:Pipeline.removeElement"]}
{"id": "C05", "title": "An exception in a stage leaves the datum at the front of that stage and everything else unchanged", "statement": "If an element raises while processing a datum, the exception propagates and the pipeline's queues and retry counters are exactly as they were before the call, so that a later processStage retries the same datum; only a datum rejected by the element's declared input type is dropped, and then nothing else changes.", "quantifier": "every pipeline state, stage number, element behaviour and datum", "why_tests_cant": "fault point is arbitrary: any stage, any datum, any queue contents", "anchors": ["astropysics/pipeline.py:Pipeline.processStage"]}
{"id": "C06", "title": "A pipeline message is delivered to exactly its targets, in order with the data around it", "statement": "A message fed to a pipeline and run to the end is delivered, in stage order, to every element its target designates (first identical object only when the target is an object; every element of exactly that class when it is a class), to no other element, and processing raises PipelineError exactly when no element was designated; the queues of data are unaffected.", "quantifier": "every list of elements, every message target", "why_tests_cant": "all pipelines, all target/class layouts including repeated elements", "anchors": ["astropysics/pipeline.py:Pipeline.processStage", "astropysics/pipeline.py:PipelineMessage.isTarget", "astropysics/pipeline.py:PipelineMessage.__call__"]}
{"id": "C07", "title": "processSingle returns the full composition and leaves queued data alone", "statement": "With data waiting nowhere but in front of the first stage, whatever retries the elements ask for, if processSingle(x) returns then it returns the last stage's result of running x through all stages and every queue holds exactly what it held before; it does return when every element completes at once. With data waiting at later stages or in the output queue, each such place keeps the newcomer and passes on its oldest datum, so that the result is that of the oldest datum at the last occupied place, while the first queue is untouched.", "quantifier": "every pipeline with arbitrary queued data, every element behaviour in which each stage completes its datum after finitely many resave-and-retry attempts below the limit, every x", "why_tests_cant": "arbitrary queue contents and retry counts at every stage", "anchors": ["astropysics/pipeline.py:Pipeline.processSingle", "astropysics/pipeline.py:PipelineElement.resaveData"]}
{"id": "C08", "title": "A processing limit bounds the attempts on any stage", "statement": "processSingle(..., processinglimit=L) with L>0 and process(repeat=L) never run a stage L+1 times in a row without completing it: they raise PipelineError when a stage has been attempted L times without success.", "quantifier": "every pipeline, every L>0, every element behaviour", "why_tests_cant": "requires a bound over non-terminating element behaviours", "anchors": ["astropysics/pipeline.py:Pipeline.processSingle", "astropysics/pipeline.py:Pipeline.processToStage"]}
{"id": "C09", "title": "extract(extractall, autoprocess) drains the pipeline", "statement": "extract(extractall=True, autoprocess=True) on a pipeline whose stages complete returns all results, oldest first, and leaves every queue empty; with no data it raises IndexError and changes nothing.", "quantifier": "every pipeline state", "why_tests_cant": "all queue contents in all stages", "anchors": ["astropysics/pipeline.py:Pipeline.extract", "astropysics/pipeline.py:Pipeline.processToStage"]}
{"id": "C10", "title": "An accumulate message collects exactly the next naccum inputs", "statement": "After an AccumulateMessage(naccum=k>=1) is delivered to an element, the next k data reaching the element are withheld, in order, and then either handed to the element as one list or stored in the requested attribute; the element then behaves exactly as before the message.", "quantifier": "every k>=1, every stream of data, every element behaviour, with and without attribute and filter", "why_tests_cant": "any k and any stream; the retry counter left behind interacts with later processing", "anchors": ["astropysics/pipeline.py:AccumulateMessage", "astropysics/pipeline.py:_Accumulator"]}
{"id": "C11", "title": "Catalog nodes always form a forest with consistent parent and children links", "statement": "After any history of node creations and parent assignments (including rejected ones), a node is listed among the children of exactly its parent, exactly once, and nobody else's; no node is its own ancestor.", "quantifier": "every finite history of node creation, parent=, addChild, removeChild calls over any number of nodes", "why_tests_cant": "unbounded histories over unbounded graphs", "anchors": ["astropysics/objcat.py:CatalogNode._setParent", "astropysics/objcat.py:CatalogNode._cycleCheck", "astropysics/objcat.py:CatalogNode.addChild"]}
{"id": "C12", "title": "A parent assignment that would create a cycle is rejected and changes nothing", "statement": "Assigning n.parent = m raises CycleError exactly when m is n or a descendant of n, in which case all links are unchanged; otherwise it succeeds, n becomes the last child of m, is removed from its former parent, and the relative order of all other children is unchanged.", "quantifier": "every forest and every pair of nodes", "why_tests_cant": "all tree shapes and pairs", "anchors": ["astropysics/objcat.py:CatalogNode._setParent", "astropysics/objcat.py:CatalogNode._cycleCheck"]}
{"id": "C13", "title": "visit calls the function once on every node of the subtree in the documented order", "statement": "visit(func) returns one value per node of the subtree: children before parent for postorder, parent before children for preorder, by nondecreasing depth (left to right) for level order; each node exactly once.", "quantifier": "every tree, every function", "why_tests_cant": "all tree shapes", "anchors": ["astropysics/objcat.py:CatalogNode.visit"]}
{"id": "C14", "title": "visit filters exactly the nodes or values asked for", "statement": "With a callable filter visit returns, in traversal order, the results of exactly the nodes the filter accepts (apart from None results); with a value filter it drops exactly the results that are that value; with includeself=False the results are those of the proper descendants, except in level order, where includeself=False gives no results at all.", "quantifier": "every tree, filter, function, traversal", "why_tests_cant": "all tree shapes, filters", "anchors": ["astropysics/objcat.py:CatalogNode.visit"]}
{"id": "C15", "title": "nnodes counts the subtree", "statement": "nnodes of a node equals the number of nodes reachable from it through children (itself included), i.e. the length of an unfiltered visit.", "quantifier": "every tree", "why_tests_cant": "all tree shapes", "anchors": ["astropysics/objcat.py:CatalogNode.nnodes", "astropysics/objcat.py:CatalogNode.visit"]}
{"id": "C16", "title": "reorderChildren permutes the children", "statement": "reorderChildren with a sequence of integers is accepted exactly if it has one index per child, no repeated index, every index is in [-L,L) for L children and inverseinds is off; otherwise it raises and changes nothing. When accepted the children become the former children at those places (negative ones counted from the end), no other node changes, and they are a permutation of the former children exactly if no two indices stand for the same place. 'reverse' twice is the identity.", "quantifier": "every list of children, every integer sequence", "why_tests_cant": "all index vectors incl. negative entries", "anchors": ["astropysics/objcat.py:CatalogNode.reorderChildren"]}
{"id": "C17", "title": "A field never holds two values from the same source and its current value is the first", "statement": "A call on a Field whose values have pairwise different sources leaves two values of one source exactly if it is a successful insert with a Source as key; so after every history of setting, inserting, deleting and selecting values without such an insert no two values have the same source, len(field) is the number of values, and field() returns the value at index 0.", "quantifier": "every finite history of field operations", "why_tests_cant": "unbounded histories", "anchors": ["astropysics/objcat.py:Field.__setitem__", "astropysics/objcat.py:Field.__delitem__", "astropysics/objcat.py:Field.insert", "astropysics/objcat.py:Field._setCurr", "astropysics/objcat.py:Field.__call__"]}
{"id": "C18", "title": "Choosing a field's current value never loses other sources' values", "statement": "Setting currentobj to a source already present moves that value to the front and keeps the relative order of the rest; setting it to a new value puts it in front and removes only a former value of the same source.", "quantifier": "every field content, every choice", "why_tests_cant": "all field contents", "anchors": ["astropysics/objcat.py:Field._setCurr"]}
{"id": "C19", "title": "Cached derived values are never stale", "statement": "After any history of notifying changes to base field values and reads of derived values, over any dependency graph (cyclic or not), reading a derived value whose flag is valid returns the function applied to the present values of its dependencies, and every read terminates. A change that does not notify, or a type check that evaluated the function, leaves the old value in force.", "quantifier": "every acyclic dependency graph, every history of updates and reads", "why_tests_cant": "unbounded graphs and histories of lazy invalidation", "anchors": ["astropysics/objcat.py:DerivedValue.value", "astropysics/objcat.py:DerivedValue.invalidate", "astropysics/objcat.py:Field.notifyValueChange"]}
{"id": "C20", "title": "Invalidation terminates and reaches every transitive dependent, even on cyclic dependency graphs", "statement": "Changing a field value invalidates exactly the derived values that depend on it directly or through other derived values, and the invalidation always terminates, also when the dependency graph has cycles; it succeeds whenever the derived values involved have a source node, while a cycle of derived values without one makes the change raise AttributeError.", "quantifier": "every finite dependency graph", "why_tests_cant": "all graphs incl. cyclic", "anchors": ["astropysics/objcat.py:DerivedValue.invalidate"]}
{"id": "C21", "title": "A source string denotes one Source object", "statement": "While a Source is alive, creating a Source with the same name (the string without its location part) yields the same object and creating one with another name yields another object; looking it up with a location gives it that location, without one changes nothing; collecting it removes it only. The pickled form of a Source re-creates a source of the same name and location (hence the same object while it is alive) whenever the name has no blanks at its ends, the location neither these nor a slash, and the name without location no slash; a name with a slash and no location and a location with one come back as other sources.", "quantifier": "every history of Source creations and collections, every string and location", "why_tests_cant": "all strings, all histories with collection of unreferenced sources", "anchors": ["astropysics/objcat.py:_SourceMeta.__call__", "astropysics/objcat.py:Source.__reduce__", "astropysics/objcat.py:Source.__init__"]}
{"id": "C22", "title": "SymmetricMapping's two directions are mutually inverse", "statement": "k maps forward to v exactly when v maps backward to k after every call of a history on a SymmetricMapping, exactly if every assignment in the history (through either direction) has a new key and a new value, or is refused because the value is taken by a key other than None while its own key has not the value None, or repeats the pair (None,v). Deletions and pops are always allowed. (In particular giving a present key another value leaves the old value mapped backward.)", "quantifier": "every finite history of set/delete through forward and backward views", "why_tests_cant": "unbounded histories", "anchors": ["astropysics/utils/gen.py:SymmetricMapping", "astropysics/utils/gen.py:_LinkedDict"]}
{"id": "C23", "title": "check_type accepts exactly the allowed types", "statement": "For every argument: check_type(types, val, acceptnone) returns silently exactly when val is None and acceptnone, or val is not None and types is None, or val is an instance of the given new-style class (for a numpy dtype: an array of that dtype) or of one of the given types before the first entry that is no type, or the given predicate is true of it; an old-style class given alone counts as a predicate, not as a type. It raises ValueError exactly if val is not None and types is no type specification, the class's own error if calling an old-style class fails, and TypeError in all other cases.", "quantifier": "every type specification and value", "why_tests_cant": "all nested specifications", "anchors": ["astropysics/utils/gen.py:check_type"]}
{"id": "C24", "title": "A bounded angle is always inside its range", "statement": "An AngularCoordinate with a range stores, after any history of successful assignments of values (but negative d,m,s triples) and ranges (but wrapping ranges of zero width), a value inside the range; with a wrapping range the stored value differs from the assigned one by a whole number of periods; a rejected assignment leaves value and range unchanged. A negative d,m,s triple is checked without its sign: it may be stored outside the range or rejected although inside; a zero-width wrapping range may hold any value.", "quantifier": "every history of assignments of ranges and values", "why_tests_cant": "all real values and range settings", "anchors": ["astropysics/coords/coordsys.py:AngularCoordinate._setRange", "astropysics/coords/coordsys.py:AngularCoordinate._checkRange"]}
{"id": "C25", "title": "Degrees/minutes/seconds setters and getters are inverse", "statement": "Setting an angle from (d,m,s) with whole d, m and 0<=m,s<60 and reading it back in d,m,s yields the same triple; reading an angle as d,m,s and setting it again yields the same angle exactly if the angle is not strictly between -1 and 0 degrees. Reading as h,m,s and setting again always yields the same angle; setting (h,m,s) and reading it back yields the same triple exactly if h>=0 or m=s=0.", "quantifier": "every angle and every triple", "why_tests_cant": "all real angles; the boundary cases around 0 and carries", "anchors": ["astropysics/coords/coordsys.py:AngularCoordinate._setDegminsec", "astropysics/coords/coordsys.py:AngularCoordinate._getDegminsec", "astropysics/coords/coordsys.py:AngularCoordinate._getHrsminsec", "astropysics/coords/coordsys.py:AngularCoordinate._setHrsminsec"]}
{"id": "C26", "title": "Sexagesimal strings carry correctly", "statement": "The degree/minute/second strings printed for an angle never show 60 minutes or 60 seconds and denote the angle rounded to the requested number of digits, except when rounding carries into the degrees of a negative angle: then they denote the wrong angle the carry gives. Hour strings do the same for angles that are not negative; those of negative angles can show 60 seconds.", "quantifier": "every angle and precision", "why_tests_cant": "all angles near carries, both signs", "anchors": ["astropysics/coords/coordsys.py:AngularCoordinate.getDmsStr", "astropysics/coords/coordsys.py:AngularCoordinate.getHmsStr"]}
{"id": "C27", "title": "Latitudes fold into [-90,90] and longitudes into [0,360)", "statement": "Assigning any angle as latitude stores a latitude within [-pi/2,pi/2] with the same sine as assigned; assigning any longitude stores the equal angle modulo a full turn within [0,2pi).", "quantifier": "every real angle", "why_tests_cant": "all reals", "anchors": ["astropysics/coords/coordsys.py:LatLongCoordinates._latSetter", "astropysics/coords/coordsys.py:LatLongCoordinates._longSetter"]}
{"id": "C28", "title": "Coordinate conversion uses the registered transform chain and yields the requested type", "statement": "If any sequence of registered transforms links two different coordinate systems, convert applies a shortest such sequence in order and returns an object of the target class; otherwise it raises; converting angular coordinates to their own class returns the object itself, while the other coordinate classes raise unless a transform of the class to itself is registered.", "quantifier": "every registry content reachable by registerTransform/delTransform histories, every pair of classes", "why_tests_cant": "all graphs", "anchors": ["astropysics/coords/coordsys.py:CoordinateSystem.convert", "astropysics/coords/coordsys.py:CoordinateSystem.getTransformPath", "astropysics/coords/coordsys.py:CoordinateSystem.registerTransform"]}
{"id": "C29", "title": "The transform registry reflects exactly the registrations in force", "statement": "After any history of registerTransform and delTransform calls that defines each transformation type once, getTransform(a,b) returns the function most recently registered for (a,b) and not deleted since, registering an occupied pair without overwrite raises and changes nothing, and path queries are never answered from a stale cache. Defining a transformation type again makes its earlier transformations use the later definition.", "quantifier": "every history of registrations, deletions and queries", "why_tests_cant": "unbounded histories with a cache", "anchors": ["astropysics/coords/coordsys.py:CoordinateSystem.registerTransform", "astropysics/coords/coordsys.py:CoordinateSystem.delTransform", "astropysics/coords/coordsys.py:CoordinateSystem.getTransformPath", "astropysics/coords/coordsys.py:CoordinateSystem.getTransformGraph"]}
{"id": "C30", "title": "Calendar date to Julian date and back is the identity", "statement": "jd_to_calendar(calendar_to_jd(date, gregorian=False), gregorian=False) is the same date for every valid Julian calendar date from year -4712 on; with gregorian=True a valid proleptic Gregorian date comes back unchanged exactly if it is on or after 1 March 300 or lies in a century starting on 1 March of a year 400k-100, and as the following day otherwise.", "quantifier": "every valid date in either calendar", "why_tests_cant": "infinitely many dates, leap-year and year-0 boundaries", "anchors": ["astropysics/obstools.py:jd_to_calendar", "astropysics/obstools.py:calendar_to_jd"]}
{"id": "C31", "title": "Consecutive days have consecutive Julian dates", "statement": "calendar_to_jd of the day after a date is one more than calendar_to_jd of the date, in each calendar, hence it counts days exactly.", "quantifier": "every valid date", "why_tests_cant": "infinitely many month/leap-year boundaries", "anchors": ["astropysics/obstools.py:calendar_to_jd"]}
{"id": "C32", "title": "The automatic calendar switches on 15 October 1582", "statement": "With the default calendar choice, jd_to_calendar shows days before 15 Oct 1582 in the Julian and days from then on in the Gregorian calendar; calendar_to_jd reads dates before 15 Oct 1582 as Julian, and dates from then on as Gregorian exactly if they fall on the 5th or later of November, December, January or February and not before November 1583 (and as Julian otherwise, contrary to the documentation).", "quantifier": "every valid date", "why_tests_cant": "all dates", "anchors": ["astropysics/obstools.py:calendar_to_jd", "astropysics/obstools.py:jd_to_calendar"]}
{"id": "C33", "title": "Epoch and Julian date conversions are inverse and monotone", "statement": "epoch_to_jd(jd_to_epoch(x)) = x and jd_to_epoch(epoch_to_jd(y)) = y for Julian and Besselian epochs with the same flags, given as numbers or strings, and later dates have later epochs; an array of strings gives the results of its elements without mjd, and results too large by 2400000.5 with mjd=True.", "quantifier": "every date, every flag combination", "why_tests_cant": "all reals", "anchors": ["astropysics/obstools.py:jd_to_epoch", "astropysics/obstools.py:epoch_to_jd"]}
{"id": "C34", "title": "TAI-UTC lookup returns the table entry in force", "statement": "delta_AT for a date from February 1972 on returns the offset of the last leap-second table entry effective in or before that month if no leap second takes effect in the month, and a smaller offset (that of the entry before) in every month of change; it is nondecreasing after 1972; before that it is the offset with drift of the last entry before the month with the day fraction counted twice; with usett=True 32.184 s are subtracted instead of added.", "quantifier": "every date", "why_tests_cant": "all dates around each table boundary", "anchors": ["astropysics/obstools.py:delta_AT"]}
{"id": "C35", "title": "Fixed-column layouts never overlap", "statement": "After any history of addColumn and delColumn calls (including rejected ones), the columns of a FixedColumnDataParser are pairwise disjoint and have distinct names, an addition is rejected exactly when it would overlap, repeat a name or be empty, and for columns from the first column number on a parsed field is exactly the text of its columns in the line, the line end included. A column declared below the first column number is read from the wrong end of the line.", "quantifier": "every history of column additions/removals and every row", "why_tests_cant": "unbounded histories and rows", "anchors": ["astropysics/utils/io.py:FixedColumnDataParser"]}
{"id": "C36", "title": "TIPSY particle kinds are split without loss or overlap", "statement": "All particle arrays of a TIPSY file are read in file order, and the gas and star arrays are the segments of ngas and nstar particles of the file; the dark arrays are the first max(ndark-ngas,0) dark particles, so they are complete exactly if there is no gas or no dark matter. Blocks that exist for one kind only are read completely.", "quantifier": "every file header and particle list", "why_tests_cant": "all sizes", "anchors": ["astropysics/utils/io.py:load_tipsy_format"]}
{"id": "C37", "title": "Cached data is downloaded once and returned afterwards", "statement": "get_data for a name returns what a first retrieval stored for every later call until a refresh is requested or the store changed; in every history whose URLs have different file names it never returns another URL's data; a crash in a first download leaves nothing behind that is taken for data, one in a refresh truncates the stored file; URLs with equal file names share one file, URLs without one always fail.", "quantifier": "every history of get_data calls", "why_tests_cant": "unbounded histories, failures of retrieval", "anchors": ["astropysics/utils/io.py:get_data"]}
{"id": "C38", "title": "Parsing TeX text into nodes and printing it gives the text back", "statement": "For every LaTeX text in which none of the following occur, text_to_nodes succeeds and the nodes it makes (environments, math, commands with their arguments, declarations in braces, plain lines) print, in order, exactly the text: `$$` that is not properly paired, a bracket of the other kind closed inside an argument and followed by an opening one, `\\end` inside the name of an environment, `\\left\\cmd`, `\\right\\cmd`, `\\right{`, `\\right[`, declarations in braces inside arguments of `\\left`, and a declaration `{\\cmd ...` with more opening than closing braces between its command and the next command, mathematics or end. A text without commands and mathematics becomes its lines; a declaration `{\\cmd text}` in such a text becomes one node whose content is exactly the text up to the brace that closes it, however braces are nested in it. Each of these shapes is needed: there are texts with it that are changed, or refused with an exception.", "quantifier": "every string", "why_tests_cant": "all strings", "anchors": ["astropysics/publication.py:text_to_nodes", "astropysics/publication.py:TeXNode.__call__"]}
{"id": "C39", "title": "prune removes exactly the node's subtree from the document", "statement": "prune on a node of a TeX tree that its parent lists removes that node (and so its subtree) from the printed document and nothing else; for the command of a declaration in braces it raises ValueError, for the line end of a comment AttributeError, and nothing is changed.", "quantifier": "every tree and node", "why_tests_cant": "all trees", "anchors": ["astropysics/publication.py:TeXNode.prune"]}
{"id": "C40", "title": "crossmask finds exactly the threshold crossings", "statement": "crossmask(x, t, belowtoabove) is true at i exactly when i>0 and x crosses t between i-1 and i in the requested direction; never at index 0.", "quantifier": "every array and threshold", "why_tests_cant": "all arrays", "anchors": ["astropysics/utils/alg.py:crossmask"]}
{"id": "C41", "title": "nearestsorted returns a nearest element", "statement": "For a nonempty sorted array, nearestsorted returns an element of the array (and its index) whose distance to the value is minimal.", "quantifier": "every sorted nonempty array and every value", "why_tests_cant": "all arrays and boundary values", "anchors": ["astropysics/utils/alg.py:nearestsorted"]}
{"id": "C42", "title": "Rotation matrices are rotations", "statement": "rotation_matrix about a named axis and by any angle, and about a vector axis when it returns, is orthogonal with determinant 1 and fixes the axis; rotations about a named axis compose by adding angles. About a nonzero vector axis it raises exactly for an odd number of full turns and is otherwise the right-handed rotation by 2*arccos(cos(angle/2)) (so the sign of the angle is lost), and two rotations compose to that of the sum of the angles exactly if these real turns add up modulo full turns.", "quantifier": "every angle and axis", "why_tests_cant": "all reals", "anchors": ["astropysics/utils/alg.py:rotation_matrix"]}
{"id": "C43", "title": "sigma_clip keeps data within the final bounds and terminates", "statement": "Every pass of sigma_clip keeps exactly the data within sig standard deviations of the centre, both of the data kept before the pass; the result is the kept data in order; clipping until convergence stops at the first pass that leaves the number of data unchanged. Whenever no pass re-admits data, which holds for a fixed centre and the variance about it, it ends after at most one pass more than there are data with a set unchanged by one more pass; with the default median and variance it may re-admit data and stop at a set another pass changes, and with other functions it may never end.", "quantifier": "every data array, every threshold, every iteration count", "why_tests_cant": "termination over all inputs", "anchors": ["astropysics/utils/alg.py:sigma_clip"]}
{"id": "C44", "title": "A processSingle call that hits its limit leaves the datum exactly as requested", "statement": "When processSingle(x, processinglimit=L) fails with PipelineError because a stage did not complete, data waiting nowhere but in front of the first stage and elements saving what they did not complete, then with removefailed=True the datum, as it came to that stage, waits in front of it once and with removefailed=False twice; all other queued data are unchanged. For an element that does not save its datum a limit of one attempt leaves it removed or waiting once as asked; with any other limit and nothing else waiting the call raises IndexError and the datum is lost.", "quantifier": "every element behaviour, queue contents, limit", "why_tests_cant": "all element behaviours and queue states", "anchors": ["astropysics/pipeline.py:Pipeline.processSingle"]}
{"id": "C45", "title": "mergeNode moves exactly the passing children and counts them", "statement": "mergeNode(other, filter) makes exactly those children of other that the filter accepts the last children of this node, in order, leaves all other children of both nodes in place and order, and returns how many were moved.", "quantifier": "every forest, pair of nodes and filter", "why_tests_cant": "all forests and filters", "anchors": ["astropysics/objcat.py:CatalogNode.mergeNode"]}
{"id": "C46", "title": "removeChild detaches exactly one child", "statement": "removeChild(node) makes a child a root (keeping its own subtree, all other links unchanged) and refuses anything else with ValueError without effect exactly if: self is a Catalog, and node is a child of it or compares equal to none of its children; or self is not a Catalog and node is no child of it. (In the other cases a node that merely compares equal to a child is detached from its own parent, or the child of a FieldNode is refused.)", "quantifier": "every forest and node", "why_tests_cant": "all forests", "anchors": ["astropysics/objcat.py:CatalogNode.removeChild"]}
{"id": "C47", "title": "What idstr identifies", "statement": "Two nodes have the same idstr exactly if they are the same node, or both have parents and have the same root, the same depth below it and the same position among the children of their parents; idstr is the root form exactly for roots and otherwise names the depth, the position and the root. In particular siblings always have distinct idstr values.", "quantifier": "every forest and every pair of nodes", "why_tests_cant": "all tree shapes", "anchors": ["astropysics/objcat.py:CatalogNode.idstr"]}
{"id": "C48", "title": "A typed field holds only values of its type", "statement": "A call on a Field with a type whose values all passed the type check (possibly after conversion to float) keeps it so exactly if it is not a successful assignment of an ill-typed value object to the current value; so after every history without such an assignment all stored values have the field's type.", "quantifier": "every history of field operations", "why_tests_cant": "unbounded histories; a single unchecked mutator breaks it", "anchors": ["astropysics/objcat.py:Field._checkConvInVal", "astropysics/objcat.py:Field._setCurr"]}
{"id": "C49", "title": "Observers hear of every change of a field's current value", "statement": "A call on a Field tells the registered notifiers of a change of the current value (old value first) exactly if it does not change the current value, or selects, replaces or deletes by source or non-negative index, or sets a value in a field that has values; in all other cases (negative indices, the first value of an empty field, insert) nobody is told or the two values are given in exchanged order.", "quantifier": "every field content and operation", "why_tests_cant": "all contents and operations, incl. negative indices", "anchors": ["astropysics/objcat.py:Field.notifyValueChange", "astropysics/objcat.py:Field.__setitem__", "astropysics/objcat.py:Field.__delitem__", "astropysics/objcat.py:Field.insert", "astropysics/objcat.py:Field._setCurr"]}
{"id": "C50", "title": "Differences of angles", "statement": "For angles a and b, a-b is the separation of measure a-b and b+(a-b) has the value of a; AngularSeparation(start,end) of two angles measures end-start exactly if the two angles are equal.", "quantifier": "every pair of angles", "why_tests_cant": "all reals", "anchors": ["astropysics/coords/coordsys.py:AngularCoordinate.__sub__", "astropysics/coords/coordsys.py:AngularCoordinate.__add__", "astropysics/coords/coordsys.py:AngularSeparation.__init__"]}
{"id": "C51", "title": "The separation of two positions is the great-circle distance", "statement": "Subtracting two latitude/longitude positions yields the angle between the directions they denote; so it is symmetric, between 0 and 180 degrees, zero exactly for equal directions, and obeys the triangle inequality.", "quantifier": "every pair (triple) of positions, including poles and antipodes", "why_tests_cant": "all reals; two formula branches per haversine and arc", "anchors": ["astropysics/coords/coordsys.py:LatLongCoordinates.__sub__"]}
{"id": "C52", "title": "Applying an orthogonal matrix turns the direction by that matrix", "statement": "matrixRotate with an orthogonal matrix changes a position so that its direction vector is multiplied by the matrix; two rotations compose, the transpose undoes one, and separations are preserved.", "quantifier": "every position and orthogonal matrix, including results at the poles and on the longitude cut", "why_tests_cant": "all reals", "anchors": ["astropysics/coords/coordsys.py:LatLongCoordinates.matrixRotate"]}
{"id": "C53", "title": "Setting the length of a rectangular vector keeps its direction", "statement": "Setting length of a nonzero RectangularCoordinates to a non-negative number makes that its length and scales all components by one factor; the zero vector is rejected.", "quantifier": "every vector and length", "why_tests_cant": "all reals", "anchors": ["astropysics/coords/coordsys.py:RectangularCoordinates._setLength", "astropysics/coords/coordsys.py:RectangularCoordinates._getLength"]}
{"id": "C54", "title": "nd_grid lays vectors out along the axes", "statement": "Entry (i; j1..jn) of nd_grid(v1..vn) is vi[ji].", "quantifier": "every number and length of vectors, every index", "why_tests_cant": "all shapes", "anchors": ["astropysics/utils/alg.py:nd_grid"]}
{"id": "C55", "title": "angle_axis recovers angle and axis of a rotation", "statement": "For a unit vector u and an angle a between 0 and 180 degrees, angle_axis(rotation_matrix(a,u)) is (a in degrees,u), whatever the degrees argument says, if the components of u have a positive sum, and gives no result otherwise.", "quantifier": "every axis and angle", "why_tests_cant": "all reals", "anchors": ["astropysics/utils/alg.py:angle_axis", "astropysics/utils/alg.py:rotation_matrix"]}
{"id": "C56", "title": "Ellipticity conversions are inverse", "statement": "The observed ellipticity lies between 0 and the intrinsic one; observed_to_intrinsic_ellipticity undoes intrinsic_to_observed_ellipticity exactly if the observed ellipticity is 0 or 1 (for inclinations strictly between 0 and 180 degrees).", "quantifier": "every ellipticity in [0,1] and inclination", "why_tests_cant": "all reals", "anchors": ["astropysics/utils/alg.py:intrinsic_to_observed_ellipticity", "astropysics/utils/alg.py:observed_to_intrinsic_ellipticity"]}
{"id": "C57", "title": "The time of day survives the trip through a Julian date", "statement": "jd_to_calendar(calendar_to_jd(t)) shows the time of day t without its microseconds on the same date when no rounding or one below a second is asked for, in exact and in double arithmetic; with the default rounding the time shown is a second late for exactly the described times, two o'clock among them.", "quantifier": "every date, every time of day, every rounding setting", "why_tests_cant": "86400 seconds of every day, and floating-point rounding decides each", "anchors": ["astropysics/obstools.py:jd_to_calendar", "astropysics/obstools.py:calendar_to_jd"]}
{"id": "C58", "title": "Matrix-combining conversion agrees with step-by-step conversion", "statement": "For transforms whose matrices do not depend on the coordinates, convert(tosys,optimize=True) gives the same result as convert(tosys,optimize=False) for all transforms along a path exactly if no other transform follows a matrix transform on it (else a matrix is applied more than once).", "quantifier": "every conversion path, mixing matrix transforms and others in any order", "why_tests_cant": "paths of any length and composition", "anchors": ["astropysics/coords/coordsys.py:LatLongCoordinates.convert"]}
{"id": "C59", "title": "Stacked registerTransform decorators register every pair", "statement": "A transform method decorated with @registerTransform lines is registered for exactly their pairs if there is at most one; with two nothing is registered and with more the class definition raises.", "quantifier": "every number of stacked decorators and every pair of classes", "why_tests_cant": "any stack height", "anchors": ["astropysics/coords/coordsys.py:CoordinateSystem.registerTransform", "astropysics/coords/coordsys.py:_CoosysMeta"]}
{"id": "C60", "title": "Pickled objects come back in order", "statement": "After any history of fpickle calls that succeeded, funpickle returns the objects appended since the file was last overwritten, in order: the first one, the first n (EOFError if there are fewer), or all, as requested, all also for a negative number. An append that fails keeps what is stored readable but makes later appends unreadable; an overwrite that fails loses everything.", "quantifier": "every history of writes (including failing ones) and every requested number", "why_tests_cant": "unbounded histories and failure points", "anchors": ["astropysics/utils/io.py:fpickle", "astropysics/utils/io.py:funpickle"]}
{"id": "C61", "title": "Visiting a TeX document reaches every node once", "statement": "TeXNode.visit(func) returns func's results (leaving out None) for the node and every node below it, each exactly once, a node before its children and children in document order.", "quantifier": "every tree and every function", "why_tests_cant": "all trees, depths and branchings", "anchors": ["astropysics/publication.py:TeXNode.visit"]}
{"id": "C63", "title": "processToStage runs everything up to the stage and nothing beyond", "statement": "processToStage(k, repeat=True) empties the inputs of stages 0..k; all the data waiting there arrive, computed and oldest first, behind what already waited at stage k+1; later queues are untouched.", "quantifier": "every pipeline, stage and arrangement of queued data", "why_tests_cant": "unbounded number of stages and data", "anchors": ["astropysics/pipeline.py:Pipeline.processToStage"]}
{"id": "C64", "title": "clear empties exactly the requested queues", "statement": "clear() empties every stage's input queue and the output queue, clear(k) only the k-th; elements and everything else stay.", "quantifier": "every pipeline state", "why_tests_cant": "all states", "anchors": ["astropysics/pipeline.py:Pipeline.clear"]}
{"id": "C65", "title": "A derived value lives in one field", "statement": "Once a DerivedValue was put into a Field, no call puts it into a field again: the attempt raises and changes nothing; field['derivedN'] is the N-th derived value of the field.", "quantifier": "every history of field calls and every value", "why_tests_cant": "unbounded histories over all mutators", "anchors": ["astropysics/objcat.py:Field._checkConvInVal", "astropysics/objcat.py:Field.__getitem__"]}
{"id": "C66", "title": "Failing derived values are handled as failedvalueaction says", "statement": "With failedvalueaction 'skip' or 'ignore', reading a DerivedValue gives None instead of raising when dependencies are empty or missing or cyclic or its function raises one of the exceptions the class handles (others always propagate); 'ignore' keeps that result until a dependency changes, 'skip' tries again at the next read.", "quantifier": "every dependency graph and history", "why_tests_cant": "all graphs incl. cyclic, all failure points", "anchors": ["astropysics/objcat.py:DerivedValue.value", "astropysics/objcat.py:DerivedValue.failedvalueaction"]}
{"id": "C67", "title": "Changing a spectrum's unit keeps the light", "statement": "Assigning to spectrum.unit changes only the representation: photon energies and x*flux (and x*err) stay the same for every sample, so any sequence of unit assignments that ends in the same unit gives the same arrays, and coming back gives the old ones. Exactly the documented words are accepted; any other raises ValueError and changes nothing.", "quantifier": "every spectrum without a sample at 0, every sequence of unit strings", "why_tests_cant": "unbounded sequences, all samples, all unit pairs", "anchors": ["astropysics/spec.py:HasSpecUnits.strToUnit", "astropysics/spec.py:HasSpecUnits._setUnit", "astropysics/spec.py:Spectrum._applyUnits"]}
{"id": "C68", "title": "Reading a spectrum in another unit does not change it", "statement": "getUnitFlux(units) returns the arrays in the requested unit and leaves the spectrum as it was, also when it raises, for every spectrum whose own unit is not THz or eV and whose continuum is no model; spectra in THz or eV raise ValueError and stay in the other unit, a model continuum is lost, and nflux, whose value is right, leaves the spectrum in Hz.", "quantifier": "every spectrum and unit", "why_tests_cant": "all units and states; only some combinations fail", "anchors": ["astropysics/spec.py:Spectrum.getUnitFlux", "astropysics/spec.py:Spectrum.nflux"]}
{"id": "C69", "title": "Continuum operations can be undone", "statement": "revertContinuum() after subtractContinuum() or normalizeByContinuum() restores the flux; a second operation or a unit change in between is refused without effect; so whatever mix of unit changes, subtractions, normalisations and reverts is made, once nothing is pending the spectrum is the old one.", "quantifier": "every spectrum with a nowhere zero continuum, every history", "why_tests_cant": "unbounded interleavings incl. failing calls", "anchors": ["astropysics/spec.py:Spectrum.subtractContinuum", "astropysics/spec.py:Spectrum.normalizeByContinuum", "astropysics/spec.py:Spectrum.revertContinuum"]}
{"id": "C70", "title": "A spectrum's arrays belong together", "statement": "The constructor pairs x, flux and error samples (sorted by x if asked), x, flux and err have one shape after any history of assignments, conversions and resamplings, and assigning the rest-frame axis x0 makes x0 read back as assigned.", "quantifier": "every input arrays and every history", "why_tests_cant": "unbounded histories", "anchors": ["astropysics/spec.py:Spectrum.__init__", "astropysics/spec.py:Spectrum._setX", "astropysics/spec.py:Spectrum.x0", "astropysics/spec.py:Spectrum.resample"]}
{"id": "C71", "title": "A FunctionSpectrum evaluates its function at the new positions", "statement": "Assigning x to a FunctionSpectrum gives the samples the function describes at these positions, in whatever unit the spectrum was converted to once; after two unit changes they can be wrong.", "quantifier": "every function, unit and position", "why_tests_cant": "all functions and unit histories", "anchors": ["astropysics/spec.py:FunctionSpectrum._setX", "astropysics/spec.py:FunctionSpectrum._applyUnits"]}
{"id": "C73", "title": "Background estimates follow the data", "statement": "estimate_background with a named method gives the documented combination of median and mean (the median has half of the data on either side); the estimate of a flat image is its level, and rescaling the data by a positive factor and adding a level does the same to the estimate.", "quantifier": "every nonempty data, level, positive factor and method", "why_tests_cant": "all data sizes and values", "anchors": ["astropysics/utils/alg.py:estimate_background"]}
{"id": "C72", "title": "Duplicate spectral lines are handled as asked", "statement": "load_line_list on a sequence of features returns them sorted by position in the asked direction (or in the given order); ondup='raise' raises IndexError exactly when two features are within the tolerance, 'warn' and None keep all, and 'remove' leaves exactly one feature of each group of duplicates (without tolerance, in the usual order of small sets, the last one) and loses no position, whenever features within the tolerance of a common one are within the tolerance of each other, as they are without one; where groups overlap it may delete features without a neighbour that stays. A misspelt ondup is noticed exactly when there are duplicates.", "quantifier": "every list of features, tolerance, ondup and sort", "why_tests_cant": "all lists and all overlap patterns; only some chains of near-duplicates fail", "anchors": ["astropysics/spec.py:load_line_list"]}
{"id": "C74", "title": "Coordinate conversions are inverse to each other", "statement": "cartesian_to_polar and _spherical followed by the conversion back with the same degrees flag return the point, for every point; so does _cylindrical in radians, and in degrees exactly on the half line y=0, x>=0 (the flag is ignored); the other way round they return the coordinates, for positive radii and angles in the principal range; radii are lengths, angles are in the documented ranges, and colatitude and latitude are inverse.", "quantifier": "every point, every coordinates in range, both units", "why_tests_cant": "all reals incl. poles, axes and the origin", "anchors": ["astropysics/coords/funcs.py:cartesian_to_polar", "astropysics/coords/funcs.py:cartesian_to_spherical", "astropysics/coords/funcs.py:cartesian_to_cylindrical", "astropysics/coords/funcs.py:latitude_to_colatitude"]}
{"id": "C75", "title": "Catalogue matching finds exactly the pairs within the tolerance", "statement": "match_coords: mask flags exactly the points with a partner within eps, maskexcept raises exactly if a point has several, maskwarn names them, count counts them, index lists exactly the matched pairs once each, and match2D[j,i] (not [i,j] as documented) tells whether point i of the first set matches point j of the second, so the documented reading is right exactly if the table is symmetric.", "quantifier": "every two point sets, tolerance and mode", "why_tests_cant": "all sizes and configurations, incl. empty sets and ties", "anchors": ["astropysics/coords/funcs.py:match_coords", "astropysics/coords/funcs.py:separation_matrix"]}
{"id": "C76", "title": "Nearest neighbours are the nearest", "statement": "match_nearest_coords(c1,c2,n) on arrays returns for each point of c1 the index and distance of its n-th nearest in c2; by default the nearest, or the nearest other point if c1 is c2; for sequences of coordinate objects it gives that answer for the first len(c1) objects of c2, and IndexError if c2 has fewer.", "quantifier": "every two point sets and n", "why_tests_cant": "all configurations incl. duplicates", "anchors": ["astropysics/coords/funcs.py:match_nearest_coords"]}
{"id": "C77", "title": "Sidereal time is a uniform rotation", "statement": "earth_rotation_angle advances uniformly by 1.0027378... turns a day and lies in one turn; greenwich_sidereal_time lies in [0,24) hours, and apparent and mean time differ by the nutation in right ascension up to a whole day; the equation of the equinoxes is the nutation in right ascension exactly if adding it to the mean time does not cross 0h.", "quantifier": "every date and nutation", "why_tests_cant": "all dates; the failure occurs only in the second around 0h sidereal time", "anchors": ["astropysics/coords/funcs.py:earth_rotation_angle", "astropysics/coords/funcs.py:greenwich_sidereal_time", "astropysics/coords/funcs.py:equation_of_the_equinoxes", "astropysics/coords/funcs.py:equation_of_the_origins"]}
{"id": "C78", "title": "Geographic and geocentric latitude convert back and forth", "statement": "geographic_to_geocentric_latitude and its counterpart are inverse to each other and strictly increasing between the poles; the geocentric latitude is that of the WGS84 ellipse and nearer to the equator.", "quantifier": "every latitude between the poles", "why_tests_cant": "all reals in the interval", "anchors": ["astropysics/coords/funcs.py:geographic_to_geocentric_latitude", "astropysics/coords/funcs.py:geocentric_to_geographic_latitude"]}
{"id": "C79", "title": "Angular and physical sizes convert back and forth", "statement": "physical_to_angular_size inverts angular_to_physical_size called with the same usez, and both are the tangent law for small and large angles; with the default arguments (which differ) the round trip returns the angle exactly if the number given is its own angular diameter distance in parsec.", "quantifier": "every size, angle below 90 degrees, distance or redshift", "why_tests_cant": "all reals", "anchors": ["astropysics/coords/funcs.py:angular_to_physical_size", "astropysics/coords/funcs.py:physical_to_angular_size"]}
{"id": "C80", "title": "Cosmological distances are consistent", "statement": "cosmo_z_to_dist is 0 at redshift 0, comoving and luminosity distance, lookback time and distance modulus grow strictly with redshift, luminosity distance = (1+z) comoving distance, which is (1+z)^2 angular diameter distance exactly in flat cosmologies, the integrand is that of the cosmology's own H(z), errors are the distances at the interval ends, and cosmo_dist_to_z inverts the comoving and luminosity distance and the lookback time for redshifts up to its search limit; angular diameter distances cannot be inverted.", "quantifier": "every FRW cosmology that always expanded, every redshift and distance type", "why_tests_cant": "integrals over all parameters and redshifts", "anchors": ["astropysics/coords/funcs.py:cosmo_z_to_dist", "astropysics/coords/funcs.py:cosmo_dist_to_z"]}
{"id": "C81", "title": "Densities add up", "statement": "H(0) is H0, the density parameters at any redshift add up to one and are today's at redshift 0, the flux density conversions are inverse, and rho(z) is the mean density of the components exactly if the curvature parameter is the same at z as today (always in flat cosmologies).", "quantifier": "every cosmology, redshift", "why_tests_cant": "all parameter values", "anchors": ["astropysics/constants.py:FRWCosmology.H", "astropysics/constants.py:FRWCosmology.rho", "astropysics/constants.py:FRWCosmology.computeOmegaMz", "astropysics/constants.py:flambda_to_fnu_l"]}
{"id": "C82", "title": "The module shows the parameters of the current cosmology", "statement": "After any sequence of choose_cosmology, update_cosmology, registrations and assignments to cosmology objects, where the parameters of every class can be read and have the name of no other module variable, the constants module holds exactly the parameters of the current cosmology (with its present values if it was chosen with autoupdate) and everything else unchanged; an unknown name raises KeyError without effect; assignments to other cosmologies have no effect on the module. A parameter named like a module variable destroys it; a choice that fails midway leaves the module without the old parameters.", "quantifier": "every history", "why_tests_cant": "unbounded histories of interleaved objects, failing choices", "anchors": ["astropysics/constants.py:choose_cosmology", "astropysics/constants.py:Cosmology._exportParams", "astropysics/constants.py:Cosmology._removeParams", "astropysics/constants.py:Cosmology.__setattr__", "astropysics/constants.py:update_cosmology"]}
{"id": "C83", "title": "A registered cosmology is found under its name", "statement": "A class registered under a name without the word cosmology (or its class name) is found by choose_cosmology under that name in any capitalisation and by get_cosmology in lower case, and registering does not disturb other names; a name with that word cannot be chosen.", "quantifier": "every name and registry", "why_tests_cant": "all strings", "anchors": ["astropysics/constants.py:register_cosmology", "astropysics/constants.py:choose_cosmology", "astropysics/constants.py:get_cosmology"]}
{"id": "C84", "title": "Magnitudes and fluxes convert back and forth", "statement": "In the Pogson system magnitude and flux conversion are inverse, m = -2.5 log10 f, brighter is smaller, errors convert to first order and back; after any history of choose_magnitude_system calls by name that system is in use, because choosing 'asinh' always raises.", "quantifier": "every magnitude, positive flux, error and history of choices", "why_tests_cant": "all reals, all histories", "anchors": ["astropysics/phot.py:PogsonMagnitude", "astropysics/phot.py:AsinhMagnitude", "astropysics/phot.py:choose_magnitude_system"]}
{"id": "C85", "title": "Distance modulus and distance are inverse", "statement": "Without autocosmo distance_from_modulus inverts distance_modulus; absolute and apparent magnitude convert back and forth with the same arguments and agree at ten parsec. With the default autocosmo every distance is taken to be cosmological and the two are not inverse; for redshifts the modulus is off by 30; distance_modulus with errors raises and the errors of distance_from_modulus are wrong.", "quantifier": "every distance, redshift, magnitude, error and autocosmo mode", "why_tests_cant": "all reals and modes; only some branches fail", "anchors": ["astropysics/phot.py:distance_modulus", "astropysics/phot.py:distance_from_modulus", "astropysics/phot.py:abs_mag", "astropysics/phot.py:app_mag"]}
{"id": "C86", "title": "Luminosities, colors and surface brightnesses are those of the magnitudes", "statement": "mag_to_lum and lum_to_mag are inverse (values, positive errors, and dictionaries of bands with their own zero points), while with an error of exactly 0 they return a single value; color and flux ratio are inverse and that of any pair of magnitudes, surface brightness is the magnitude of the flux per area and its cosmological correction the same in magnitudes and flux.", "quantifier": "every magnitude, luminosity, zero point, unit, error, dictionary of known bands", "why_tests_cant": "all reals and dictionaries", "anchors": ["astropysics/phot.py:mag_to_lum", "astropysics/phot.py:lum_to_mag", "astropysics/phot.py:color_to_flux_ratio", "astropysics/phot.py:flux_ratio_to_color", "astropysics/phot.py:area_to_surface_brightness", "astropysics/phot.py:cosmo_surface_brightness_correction"]}
{"id": "C87", "title": "Color and effective temperature are inverse to each other", "statement": "teff_to_color inverts color_to_Teff and the other way round within the documented range, for both color systems; redder is cooler; outside the range the nearest tabulated value (B-V), ValueError (g-r color) or None (g-r temperature) is returned, and the search for the g-r color never finds several.", "quantifier": "every color and temperature", "why_tests_cant": "all reals; piecewise interpolation between 13 knots and the roots of a cubic in any order", "anchors": ["astropysics/phot.py:color_to_Teff", "astropysics/phot.py:teff_to_color"]}
{"id": "C88", "title": "Magnitude dictionaries are completed from the bands they hold", "statement": "transform_dict_ugriz_UBVRI adds exactly the bands of the other system that can be computed, from the bands present only (the stand-in for missing bands never leaks), and changes nothing else; if it raises it changes nothing; it raises ValueError if both systems are present and TypeError if neither is. Dimming all bands dims all results equally, and converting there and back returns nearly the same magnitudes.", "quantifier": "every dictionary and magnitudes", "why_tests_cant": "all subsets of bands and values", "anchors": ["astropysics/phot.py:transform_dict_ugriz_UBVRI", "astropysics/phot.py:UBVRI_to_ugriz", "astropysics/phot.py:ugriz_to_UBVRI"]}
{"id": "C89", "title": "A band is an ordered, nonnegative, normalised response, and magnitudes follow the flux through it", "statement": "An ArrayBand has its samples ordered by position, no negative response, peak 1 if normalised at creation (also after a change of units; `normalized` cannot be changed later), independent of the scale of the input, and is reproduced from its own samples. A spectrum k times as bright has k times the flux and is 2.5 log10 k magnitudes brighter in every band; the zero point spectrum has magnitude 0; a spectrum that does not cover the band raises; the response weights a spectrum, but not fluxes given as an array.", "quantifier": "every samples, unit transformation, spectrum, alignment mode and scale", "why_tests_cant": "all sample lists, orders and interpolation positions", "anchors": ["astropysics/phot.py:ArrayBand", "astropysics/phot.py:Band.computeFlux", "astropysics/phot.py:Band.computeMag", "astropysics/phot.py:Band.computeZptFromSpectrum", "astropysics/phot.py:Band.isOverlapped"]}
{"id": "C90", "title": "A photometric observation reports the same measurement as magnitude and flux", "statement": "After any history of assignments a one-dimensional PhotObservation has one value and error per band; magnitudes assigned are read back and give the fluxes of the zero points, assigned errors are read back in the representation they were assigned in, and magnitude errors give flux errors to first order; a wrong number of values is refused without effect. Magnitudes of observations stored as fluxes are a NameError, flux errors assigned to stored magnitudes are converted wrongly, and changing the representation reinterprets the stored errors.", "quantifier": "every number of bands, values, errors and history of assignments to mag, magerr, flux, fluxerr", "why_tests_cant": "unbounded histories switching between representations", "anchors": ["astropysics/phot.py:PhotObservation"]}
{"id": "C91", "title": "The robust estimators of scale are what they are called and robust", "statement": "The median absolute deviation is a median of the distances from a median of the data (a given centre estimator is ignored), does not depend on their order, scales with the data, and stays within the spread of any majority of the data whatever the rest is. The biweight midvariance follows its definition with the centre estimator given, is not negative, scales with the square, and ignores how far outliers are; it is not a number when a majority of the data are equal.", "quantifier": "every sequence of values, scaling, centre estimator and outlier", "why_tests_cant": "unbounded data and adversarial outliers", "anchors": ["astropysics/utils/stats.py:median_absolute_deviation", "astropysics/utils/stats.py:biweight_midvariance"]}
{"id": "C92", "title": "The interquartile range covers half of the data and is robust", "statement": "The interquartile range is the difference of the upper and lower quartile (at most the expected share of the data lies beyond either), nonnegative, independent of the order, scales with the data, and is bounded by any interval with less than a quarter of the data on each side.", "quantifier": "every nonempty sequence, scaling and outlier", "why_tests_cant": "unbounded data", "anchors": ["astropysics/utils/stats.py:interquartile_range"]}
{"id": "C93", "title": "Principal components reproduce the data and separate its variance", "statement": "The data are normalised to mean zero and variance one; projecting and going back gives the data; scores of the first q components survive the way back and forth; the scores are uncorrelated with the eigenvalues as variances; energies sum to one and the error of keeping q components is the energy left out. Selecting components by energy always raises; subtractPC is right exactly where the standard deviation is one or nothing is left; sigclip fails unless there are as many data as dimensions, and then compares values with the scatter of other data, or one dimension, where it removes everything.", "quantifier": "every data set, eigen decomposition, number of components and threshold", "why_tests_cant": "all matrices", "anchors": ["astropysics/utils/stats.py:Pca"]}
{"id": "C94", "title": "Moments of an array are the weighted means of powers of the positions", "statement": "For any array, orders and positions, moments returns sum(arr*prod(x_i^m_i)), divided by sum(arr) if normalised: order zero gives one, shifting or scaling the positions shifts the centroid or scales the moments, a product of profiles has the product of their moments, all light in one place gives the position, the centroid of nonnegative data lies in the range; mismatched positions or orders raise; std divides by the standard deviation of the positions of the grid, whatever the distribution; integer arrays with a scalar order give truncated results.", "quantifier": "every number of dimensions, shape, array, orders and positions", "why_tests_cant": "all shapes and orders", "anchors": ["astropysics/utils/stats.py:moments"]}
{"id": "C95", "title": "Binned weights give every occupied bin the same share", "statement": "binned_weights(values,n) divides the range of the values into ten bins, whatever n, and returns one weight in (0,1] for every value such that the weights of every bin that is not empty sum to one; values given as integers get the weights 0 or 1 instead.", "quantifier": "every sequence of values and number of bins", "why_tests_cant": "all data", "anchors": ["astropysics/utils/stats.py:binned_weights"]}
{"id": "C96", "title": "Registries of named objects keep every registered name and return groups completely", "statement": "For any history of register, addToGroup and getObjects on a registry (bands, sites): a registered name keeps an object and is listed once; register gives every name of its argument its object and defines the groups as exactly those names; a group lookup gives the current objects of all its members, and recurses for ever if the group has the name of a member; getObjects of 'all', a name, a group, a comma list, single-character names or a sequence returns exactly the objects asked for, in order, and changes nothing unless addmissing, which adds each unregistered object under its own name and never replaces one if it has a name. Removing always raises TypeError.", "quantifier": "every history of calls, every name, group, object and recursion limit", "why_tests_cant": "histories and names are unbounded", "anchors": ["astropysics/utils/gen.py:DataObjectRegistry"]}
{"id": "C97", "title": "Docstrings are re-indented and combined without changing their text", "statement": "For every docstring, change_indentation(s,ind) removes the first line's indentation, replaces it in the other lines by ind keeping further indentation, strips the ends, leaves unindented text alone, and is not changed by a second call; add_docs on a function with a docstring replaces the placeholder {docstr:Name}, occurring once, by the named documentation and keeps the text around it, or appends the documentation; without a docstring it raises TypeError.", "quantifier": "every text, indentation and name", "why_tests_cant": "all texts", "anchors": ["astropysics/utils/gen.py:change_indentation", "astropysics/utils/gen.py:add_docs"]}
{"id": "C98", "title": "Extinction corrections of magnitudes, colours, fluxes and spectra agree", "statement": "For every extinction law and normalisation: Alambda(band) is the extinction in the band and correctPhotometry subtracts it; correcting a flux is correcting its magnitude; corrections compose additively and invert; a spectrum is corrected point by point keeping relative errors; correctColor(m1-m2,(b1,b2)), also for 'E(b1-b2)', is the difference of the corrected magnitudes, while 'b1-b2' and a name with a wavelength fail; unknown bands raise; a law given as a function is refused and anything else accepted.", "quantifier": "every law, normalisation, band, wavelength, magnitude and flux", "why_tests_cant": "real-valued identities over all laws", "anchors": ["astropysics/obstools.py:Extinction"]}
{"id": "C99", "title": "Extinction laws are normalised as asked", "statement": "Setting EBmV and reading it gives the same value and A(V)=Rv*E(B-V); the extinction is proportional to E(B-V); after computeA0FromFluxRatio with a measured and an expected line ratio given by lines or a Balmer decrement name the corrected lines have the expected ratio, while several decrements or a plain number fail; the Cardelli law is defined exactly for 0.3..10 inverse microns and raises otherwise; the class is normalised to the V band, the deprecated extinction_correction is not: the class gives its result for E(B-V) divided by the law in V; the Fitzpatrick-Massa far-UV term is continuous.", "quantifier": "every E(B-V), Rv, wavelength, fluxes and ratio", "why_tests_cant": "real-valued identities over all inputs", "anchors": ["astropysics/obstools.py:CardelliExtinction", "astropysics/obstools.py:FMExtinction", "astropysics/obstools.py:extinction_correction"]}
{"id": "C100", "title": "Horizontal coordinates are the equatorial direction seen from the site", "statement": "For every latitude, equatorial position and sidereal time, Site.equatorialToHorizontal gives altitude in -90..90 and azimuth in [0,360) of the direction of the object in the axes north/east/zenith of the site: angles between objects are preserved, the pole stands in the north at the latitude (northern sites), the altitude is greatest at transit (90-|lat-dec|), objects are in the east before and in the west after transit, the position repeats every sidereal day and depends only on lst-ra. If the position has errors the first-order propagated errors are given under each other's name: the altitude error holds the azimuth's and the other way round.", "quantifier": "every latitude, position, sidereal time and error", "why_tests_cant": "real-valued identities for all angles", "anchors": ["astropysics/obstools.py:Site.equatorialToHorizontal"]}
{"id": "C101", "title": "Rise, set and transit bracket exactly the time above the altitude", "statement": "On a site and object short of the poles, at altitudes within 90 degrees and with uniform sidereal time: riseSetTransit gives None for rise and set exactly if the object is always above, None for all exactly if it is always below the altitude, and otherwise the object is at or above the altitude exactly within a half arc of the transit and rise and set are the ends of the arc modulo a day; as datetimes rise<=transit<=set are these moments to the microsecond unless the altitude is just reached at transit, when rise and set are a day off; in UTC the transit is right exactly if its UTC date is the local date and otherwise whole days off. nextRiseSetTransit gives the first window of the three days around now that has not ended. On sites on UTC, onSky says yes only if the object is above the altitude, and does say yes within 11.9 hours of the first transit of a day if it is; at a second transit on a day it says no for every object that rises and sets.", "quantifier": "every site, object, altitude, date and moment", "why_tests_cant": "all real angles and times; the failing days are one in a year", "anchors": ["astropysics/obstools.py:Site.riseSetTransit", "astropysics/obstools.py:Site.nextRiseSetTransit", "astropysics/obstools.py:Site.onSky"]}
{"id": "C102", "title": "Sidereal and civil time of a site are consistent", "statement": "localSiderialTime is Greenwich sidereal time plus longitude/15 in [0,24); all forms of its argument denote the same moment, and all forms of its result the same time, cut to the microsecond. If apparent sidereal time runs uniformly, localTime of a number of hours is its inverse on the given date: the first moment of the day with that sidereal time, on that date, and modulo a day in UTC. It reads mean sidereal times as apparent ones (the argument has no effect) and ignores the time of a datetime argument.", "quantifier": "every longitude, date, time and argument form", "why_tests_cant": "all reals", "anchors": ["astropysics/obstools.py:Site.localSiderialTime", "astropysics/obstools.py:Site.localTime"]}
{"id": "C103", "title": "Apparent positions include refraction", "statement": "apparentCoordinates without refraction, or without a date, gives the geometric position at that time (now, without a date); with refraction the azimuth is unchanged and every object above the horizon is reported lower than it stands, because the formula, which raises objects if given degrees, is given radians; temperature and height have no effect, except that a temperature of 0 switches refraction off.", "quantifier": "every altitude, temperature, site and date", "why_tests_cant": "all real altitudes", "anchors": ["astropysics/obstools.py:Site.apparentCoordinates"]}
{"id": "C104", "title": "A CCD image shows, clips and stores exactly the pixels of its active range", "statement": "For any history of activateRange, setScaling, changes of data, statistics and applyChanges on an ArrayImage (or a FitsImage without active range): data are the scaled pixels of the range (a centre/radius range is the square cut at the edges); clipping and offsetting change exactly the pixels they should by the documented value (minp1 by one less) and return the counts per column, clipSigma ignoring fullsig; nothing outside the range changes; applyChanges stores the inversely scaled data in the range and reading the range again shows the data. Ranges of FITS images are stored transposed or, if not square, rejected; statistics are fresh after applyChanges, not renewed when pixels change and never available again after setScaling; the constructor ignores the range without a scaling; edits of loaded images and bias and flat corrections of images in memory, with the linear scaling, are not stored.", "quantifier": "every image, range, scaling, action and history of operations", "why_tests_cant": "histories and images are unbounded", "anchors": ["astropysics/ccd.py:CCDImage", "astropysics/ccd.py:FitsImage", "astropysics/ccd.py:ArrayImage"]}
{"id": "C105", "title": "Data scalings are undone by their inverse and reach their range", "statement": "For the linear, exponential, asinh and (positive values) surface brightness scalings x = invtransform(transform(x)), and data written back are read again unchanged (exponential: if not negative); the power scaling does nothing whatever its power. The logarithmic scaling keeps the order of pixels and maps the smallest to lower, and the largest to upper exactly if the smallest is 0 or the two are equal; it raises with a base, with an open range and when written back. Surface brightness follows the magnitude scale, with minus the zero point of the image.", "quantifier": "every pixel value and scaling parameter", "why_tests_cant": "real-valued identities", "anchors": ["astropysics/ccd.py:DataScaling", "astropysics/ccd.py:LogScaling", "astropysics/ccd.py:PowerScaling", "astropysics/ccd.py:SurfaceBrightnessScaling"]}
{"id": "C106", "title": "Noise models add noise of mean zero and of the variance they report", "statement": "Noise that a model adds has mean zero and the variance that the model reports: for Poisson and Gaussian models always, for uniform models exactly if the limits are symmetric (or a fraction of 0) and, as a fraction, the value is 1 in size or the limits are equal, for CCD models exactly if the gain is 1 or the value 0 (the variance always, the mean is data/gain). std is the root of var, and results respect floor and ceiling.", "quantifier": "every model parameter and data value", "why_tests_cant": "a statement about distributions", "anchors": ["astropysics/ccd.py:NoiseModel", "astropysics/ccd.py:UniformNoise", "astropysics/ccd.py:CCDNoise"]}
{"id": "C107", "title": "Bias subtraction removes the bias frame, the level of the bias region and the overscan", "statement": "subtractFromImage on the x axis subtracts the frame pixel by pixel and then the combined value of the bias region, which then averages to zero with 'mean'; a callable method sees the whole image whatever the region; with an overscan and trimming it keeps the rows beyond the edge, minus one level for each column which is that of the very rows kept, so that with 'mean' every column averages to zero. Without settings it does nothing on the x axis and transposes on the y axis; unknown methods and axes are ValueErrors if they are needed. The result is stored in a FITS image opened as a whole and is lost for an image in memory with linear scaling.", "quantifier": "every image, frame, region, overscan and method", "why_tests_cant": "all images", "anchors": ["astropysics/ccd.py:ImageBiasSubtractor"]}
{"id": "C108", "title": "Combining and flattening images", "statement": "Combining with a statistic and sigclip uses exactly the values at most sigclip standard deviations above the mean of their pixel (nothing low is rejected), which rejects nothing unless there are more than sigclip^2+1 images; weights give the weighted sum and ignore sigclip; whole-pixel shifts move pixels by the shift; trimming keeps exactly the pixels on which all images overlap if the shifts of both axes agree and the smallest is 0, and not in general otherwise. flattenImage restores the scene times the base value of the flat field, whatever the scale of the flat field, and is a TypeError without one.", "quantifier": "every stack of images, shift, threshold, weight and flat field", "why_tests_cant": "all images and stacks", "anchors": ["astropysics/ccd.py:ImageCombiner", "astropysics/ccd.py:ImageFlattener"]}
{"id": "C109", "title": "Dates of moving objects", "statement": "Assigning a date stores it, warns exactly if it is outside the valid range, and updates everything derived from it; a call with no date, one date or many returns the coordinates at exactly those dates in order, converted if asked, and whether it succeeds or fails leaves the object's own date and state unchanged; using the shared solar system table never disturbs it.", "quantifier": "every subclass, date, list of dates, failing date and sequence of assignments and calls", "why_tests_cant": "all histories", "anchors": ["astropysics/coords/ephems.py:EphemerisObject", "astropysics/coords/ephems.py:get_solar_system_ephems"]}
{"id": "C110", "title": "Proper motion", "statement": "A ProperMotionObject starts at its given position and epoch, moves linearly with the stated proper motions (arcsec per Julian year) and radial velocity, labels its coordinates with the epoch of the date, and drastar reads back what was set and is dra*cos(dec0); assigning epoch0 later changes neither present nor later positions.", "quantifier": "every position, motion, epoch, date and sequence of assignments", "why_tests_cant": "all real numbers and histories", "anchors": ["astropysics/coords/ephems.py:ProperMotionObject"]}
{"id": "C111", "title": "Keplerian orbits", "statement": "Elements given as coefficients are polynomials in Julian centuries; the angles L, Lp, ap, M are consistent whichever pair was given, both pairs are a TypeError, and if neither pair is complete reading any of them recurses for ever. With a solver that is exact when no tolerance is given, the eccentric anomaly with tolerance None solves Kepler's equation, and with tolerance 0 does so to third order in the eccentricity; the default tolerance 23.43928 guarantees nothing. True anomaly, distance (between dperi and dapo) and position follow from the eccentric anomaly and lie in the orbital plane; the phase is between 0 (new) and 1 (full). The default arguments of the phase raise KeyError, an unknown method NameError, and the long-period corrections are never applied.", "quantifier": "every orbit with eccentricity below 1, every date and geometry", "why_tests_cant": "all real numbers", "anchors": ["astropysics/coords/ephems.py:KeplerianObject", "astropysics/coords/ephems.py:Moon", "astropysics/coords/ephems.py:set_solar_system_ephem_method", "astropysics/coords/ephems.py:_keplerian_ephems"]}
{"id": "C112", "title": "Position and velocity of the Earth", "statement": "The velocity of the Earth is the derivative of its position, in AU per Julian year or km/s, heliocentric or barycentric, whatever the table of coefficients; tables of unequal length are padded without effect; a warning is given exactly more than a century from J2000; the geocentric position of a planet is its heliocentric position minus the barycentric position of the Earth, so it is off by exactly the Sun's distance from the barycentre; the tilt of the ecliptic is a rotation to 1e-12.", "quantifier": "every date and every table of coefficients", "why_tests_cant": "all dates and tables", "anchors": ["astropysics/coords/ephems.py:earth_pos_vel", "astropysics/coords/ephems.py:_compute_earth_series", "astropysics/coords/ephems.py:_ecl_to_gcrs", "astropysics/coords/ephems.py:Earth"]}
{"id": "C113", "title": "Mass, light and width of profile models", "statement": "The parameters of the profile models mean what their names say: the mass of Hernquist, Jaffe and Plummer models, the light of a Moffat model, tends to the total parameter; analytic enclosed masses are the integrals of the profiles over spheres, circles (also of the projected NFW model, whose differences are the light of every ring) and, but for NFW shells that do not start at 0, which lack the factor 4 pi r^2, shells and rings; a FWHM that is set is read back and halves the profile; conversions to alpha-beta-gamma models give the same function; a King profile reaches 0 at its tidal radius and rises again beyond.", "quantifier": "every radius and all positive parameters", "why_tests_cant": "all real radii and parameters", "anchors": ["astropysics/models.py:HernquistModel", "astropysics/models.py:JaffeModel", "astropysics/models.py:PlummerModel", "astropysics/models.py:NFWModel", "astropysics/models.py:NFWProjectedModel", "astropysics/models.py:MoffatModel", "astropysics/models.py:King2DrModel", "astropysics/models.py:BurkertModel", "astropysics/models.py:EinastoModel"]}
{"id": "C114", "title": "NFW haloes", "statement": "The virial radius of an NFW halo is the one radius at which the mean density is the virial density; setC with a mass or a radius (or neither) makes the halo have that virial mass or radius and the concentration as quotient of radii, and with both the mass within that radius; getC reports the concentration of the first setC call with both, if there was one, for ever after, and otherwise the true one. The circular velocity is that of the enclosed mass and getVmax is its maximum to 1e-6; create_Mvir and create_Rvir make haloes with the requested mass and radius, create_VmaxRvmax misses the radius by more than 0.1 percent, Cvir_to_Mvir and create_Cvir always fail. The scaling relations between mass, radius and velocities are inverse to each other at every redshift; Vmax_to_Rvir is their composition exactly if the virial overdensity times (1+z)^3 is that of today.", "quantifier": "every halo, cosmology, redshift, concentration, mass and sequence of setC calls", "why_tests_cant": "all real parameters and histories", "anchors": ["astropysics/models.py:NFWModel.setC", "astropysics/models.py:NFWModel.getRv", "astropysics/models.py:NFWModel.getVmax", "astropysics/models.py:NFWModel.create_VmaxRvmax", "astropysics/models.py:NFWModel.Mvir_to_Rvir"]}
{"id": "C115", "title": "Luminosity functions and Sersic profiles", "statement": "The derivative and integrals of the luminosity form of the Schechter function are those of the function, and the two forms describe the same galaxies; the integral of the magnitude form is right between numbers other than a lower limit 0, and too small by a known amount, even negative, from 0 or to infinity (slopes above -1); its derivative method is right exactly at Mstar and at the maximum. Half of the light of a Sersic model is inside re exactly if the coefficient solves the equation, as it does by default after any history; the value at re is Ae; the coefficient is that of the method chosen last whatever was computed before, and of the object's own index even if another is given; A0 reads back what was set; a de Vaucouleurs model can never be evaluated.", "quantifier": "every index, slope, limit (finite or infinite) and sequence of calls", "why_tests_cant": "all real parameters, limits and histories", "anchors": ["astropysics/models.py:SchechterMagModel", "astropysics/models.py:SchechterLumModel", "astropysics/models.py:SersicModel", "astropysics/models.py:DeVaucouleursModel"]}
{"id": "C116", "title": "Blackbodies", "statement": "A blackbody in wavelength or frequency, in any unit, describes the same radiation; its integral over frequencies is given by the Stefan-Boltzmann law (the method of an instance always fails, after changing T) and its maximum by Wien's law to 1e-6 (frequencies) and 1e-4 (wavelengths); the energy form is too small, by at least 2h^2 up to kT. Wien's law there and back gives the temperature for wavelengths, and for frequencies and energies exactly in the cgs unit. Flux radius and distance invert setFlux; getFlux does not change the model unless both are given; a peak that is set is read back, and in energy units fails and resets A.", "quantifier": "every temperature, unit, radius and distance", "why_tests_cant": "all real parameters", "anchors": ["astropysics/models.py:BlackbodyModel", "astropysics/phot.py:intensity_to_flux"]}
{"id": "C117", "title": "Magnitudes and colours to a table of bands", "statement": "CMDAnalyzer accepts magnitudes and colours in any mixture: directly given bands are taken over unchanged, every colour of two bands that is not reported as overdetermined is the difference of the two rows stored, and if the numbers belong to real stars and no colour is reported as underdetermined, every row of the table is the true magnitude. The order matters: a colour that comes before what determines its bands is reported as underdetermined, its first band unmeasured and its second made up though counted as measured.", "quantifier": "every list of band and colour names, every array, every order", "why_tests_cant": "all inputs and orders", "anchors": ["astropysics/phot.py:CMDAnalyzer._dataAndBandsToDicts", "astropysics/phot.py:CMDAnalyzer.__init__"]}
{"id": "C118", "title": "CMD offsets", "statement": "getOffsets returns for every object the documented offset: the smallest weighted distance in the selected bands and colours from the fiducial points moved to the distance modulus, negative weights being relative to the total range, combined with the weighted distance from the centre.", "quantifier": "every reachable analyzer, selection, set of weights, data and locations", "why_tests_cant": "all states and real values", "anchors": ["astropysics/phot.py:CMDAnalyzer.getOffsets", "astropysics/phot.py:CMDAnalyzer._calculateOffsets", "astropysics/phot.py:CMDAnalyzer.offsetweights"]}
{"id": "C119", "title": "CMD offsets are current", "statement": "getOffsets returns the offsets of the settings at that moment whatever was set or computed before, as long as locs, center and offsetweights=None were not set since the last step that dropped the cached offsets (new data, distmod, locweight, offsetbands, clearOffsets) or since the analyzer was made; once offsets are computed, setting any of these three changes nothing in what is returned.", "quantifier": "every history of assignments and calls", "why_tests_cant": "all histories", "anchors": ["astropysics/phot.py:CMDAnalyzer.getOffsets", "astropysics/phot.py:CMDAnalyzer.center", "astropysics/phot.py:CMDAnalyzer.locs", "astropysics/phot.py:CMDAnalyzer.offsetweights", "astropysics/phot.py:CMDAnalyzer.distmod"]}
{"id": "C120", "title": "Distance and fiducial sequences", "statement": "Only the difference between data and distance modulus counts: making all objects fainter and the distance modulus larger by the same amount changes no offset, colours do not depend on the distance modulus at all; fiducial data come back as given, by name in the order of the indices, moved by the distance modulus, and a fiducial colour is the difference of the fiducial magnitudes.", "quantifier": "every reachable analyzer, distance modulus, shift and name", "why_tests_cant": "all states and real values", "anchors": ["astropysics/phot.py:CMDAnalyzer.distmod", "astropysics/phot.py:CMDAnalyzer.getFiducialData"]}
{"id": "C121", "title": "Settings of a CMD analyzer", "statement": "A dictionary of fiducial names is accepted exactly if it is a partition of the points, if there are two or more (with one, duplicates and omissions pass); there are always as many names as objects; group numbers survive new data of another length, locations do not. Offset bands can be given as names, colour texts or integers; a 2-tuple is two bands; a colour of which one band is unmeasured gives NaN, unmeasured bands are refused; weights can be set exactly while offset bands are chosen and are lost with new data or bands. Data given as a dictionary are stored per band, made-up bands not counting as measured.", "quantifier": "every dictionary, selection, history of assignments", "why_tests_cant": "all inputs and histories", "anchors": ["astropysics/phot.py:CMDAnalyzer.__init__", "astropysics/phot.py:CMDAnalyzer.setData", "astropysics/phot.py:CMDAnalyzer.offsetbands", "astropysics/phot.py:CMDAnalyzer.datagroups", "astropysics/phot.py:CMDAnalyzer.locs"]}
{"id": "C122", "title": "Photometry of images", "statement": "A FWHM that is set is read back and is the full width at half maximum of the Gaussian, while the width fitted to a point source depends only on its position; magnitude and flux conversion are inverse to each other, but totalmag of a photometry is always positive; an isophotal ellipse is drawn completely and only on the ellipse with the fitted axes, angle and centre, the larger axis first, if the fitted angle is within one turn, and a fit that settles on another angle recurses for ever; the eccentricity of an ellipse is nan and a level given is lost. A total flux or total magnitude that is set on a model is read back and changes only the one normalisation parameter, which is the only one of the names that the model has; a name of several characters given as a text is not found.", "quantifier": "every width, zero point, ellipse, model and set of names", "why_tests_cant": "all real parameters and models", "anchors": ["astropysics/phot.py:GaussianPointSpreadFunction", "astropysics/phot.py:PhotometryBase", "astropysics/phot.py:IsophotalEllipse", "astropysics/phot.py:ModelPhotometry"]}
{"id": "C123", "title": "SExtractor files round trip", "statement": "An options file that a Sextractor object with one-word values writes is read back by a new object with exactly the same options, whatever the defaults and comments, and a parameter file selects exactly the parameters that were selected; a line with an unknown option or parameter anywhere in a file is a ValueError. A value of two words loses the second, an empty value leaves the default, and in a line without a comment the last character is lost.", "quantifier": "every set of options, values, comments, defaults and selection", "why_tests_cant": "all texts", "anchors": ["astropysics/phot.py:Sextractor._makeOptionStr", "astropysics/phot.py:Sextractor._makeParamStr", "astropysics/phot.py:Sextractor.__init__"]}
{"id": "C124", "title": "SExtractor file names", "statement": "With overwrite=False, in a directory without files of these names, the runs of a Sextractor object whose name b has no dash and is no number write b, b-2, b-3, ..., all different and none existing before, for any number of runs; but if b and b-2 both exist b-2 is written, and for an existing name with a dash what follows the last dash is lost if it is no number. The parameter file lies beside the options file exactly if the name has no directory part.", "quantifier": "every base name, directory and number of runs", "why_tests_cant": "all histories of calls", "anchors": ["astropysics/phot.py:Sextractor.sextractImage", "astropysics/phot.py:Sextractor._saveFiles"]}
{"id": "C125", "title": "Project registry", "statement": "After any history of add_project and del_project with texts without line ends (and names without '=' and leading bracket), get_projects gives exactly the projects registered and not removed, with the directory and script file of their last registration as a list; a registration is accepted exactly if its texts can be quoted, a removal exactly if the name is registered, and an operation that is not accepted changes nothing. A name with '=' is stored as another name and directory, one that begins with it makes the registry unreadable for ever. Comments written by hand survive registrations; a file with a name given twice is refused.", "quantifier": "every history of registrations and removals, every name and path", "why_tests_cant": "all texts and histories, through the file format with quoting and backtracking regular expressions", "anchors": ["astropysics/config.py:get_projects", "astropysics/config.py:add_project", "astropysics/config.py:del_project", "astropysics/external/configobj.py:ConfigObj"]}
{"id": "C126", "title": "Crashes while the registry is written", "statement": "If a crash interrupts writing the project registry between two lines, whatever the history before, what remains is read without error and every project found in it has the directory and script that the new registry gives it; but the crash can lose all projects (an empty file, read without error), and a crash inside a line can leave a wrong path without any error.", "quantifier": "every history, operation and crash point", "why_tests_cant": "crash points", "anchors": ["astropysics/config.py:add_project", "astropysics/external/configobj.py:ConfigObj.write"]}
{"id": "C127", "title": "Directories and scripts of projects", "statement": "add_project changes and removes nothing that exists and creates at most the project directory and the script. For names and paths that can be registered (C125): if it succeeds the pair returned exists (a new script has the template's text) and exactly that pair is registered, the others being as before; repeating it gives the same pair and changes no file. If it fails the registry is as before. It succeeds if the directory exists or its parent does and no directory is in the place of the default script, which lies directly in the directory and ends in .py; missing directories above it are not made, also when they come from a slash in the name. Relative paths are resolved and the text registered denotes the path.", "quantifier": "every file system, working directory, name, directory and script argument", "why_tests_cant": "all file systems", "anchors": ["astropysics/config.py:add_project"]}
{"id": "C128", "title": "Installing packages", "statement": "If install returns, the archive was a tar, unpacked, and built and installed by successful commands, and the package counts as installed; a good archive is installed with the prefix given and downloaded only if not on disk. If the installation command fails the package counts as not installed and NameError is raised, as for a failing build, after which the object does not know; zip archives always raise AttributeError and version requests NameError. A broken download that raises an IOError with one argument is used for ever; one with two is downloaded again, without the prefix, as often as it is broken.", "quantifier": "every sequence of outcomes of downloads, archives and commands", "why_tests_cant": "all outcomes of the environment", "anchors": ["astropysics/config.py:PackageInstaller"]}
{"id": "C129", "title": "VOTables come back", "statement": "Reading a VOTable whose tables get different names gives every table under resource:name or tabN (with the number added to a name used before), no others, with its resource, fields in order, parameters (the table's own before the resource's before the document's) and every cell converted to its column's type, empty cells masked; tables can be named by name or number, unknown ones are KeyError or IndexError; the parameters are in the tables but getTableParams never returns them; if an added number makes two names equal the earlier table is lost.", "quantifier": "every document of resources, tables, fields, parameters and rows, and every order in which a dictionary lists its keys", "why_tests_cant": "all documents", "anchors": ["astropysics/utils/io.py:VOTableReader"]}
{"id": "C130", "title": "Malformed and unsupported VOTables", "statement": "A VOTable with unsupported content, stray elements or white space between the cells of a row, rows longer than the fields, tables without data, bit columns with data, a declared number of rows, several descriptions or two columns of one name raises and is never half read; short rows are accepted and leave cells that were never written but count as present.", "quantifier": "every sequence of parser events", "why_tests_cant": "all inputs", "anchors": ["astropysics/utils/io.py:VOTableReader.__init__", "astropysics/utils/io.py:VOTableReader._processTabledata"]}
{"id": "C62", "title": "Loading and saving a TeX file", "statement": "Loading a TeX file and saving it unchanged writes back the text that was read, with every comment in its place, for every file with a preamble line whose comments do not stand inside arguments or directly after an opening brace, whose names of environments end on their line, whose \\documentclass and \\usepackage have the usual arguments and whose two parts are texts that parsing keeps. Otherwise this may fail: a comment inside an argument or after a brace is replaced by an undefined command, blank class options are dropped, class arguments are put in another order, a file without preamble gains a new line, a comment among the options raises IndexError. A file without \\begin{document} outside of comments is refused.", "quantifier": "every text, however many lines, comments, environments and commands it has and whichever names occur in it", "why_tests_cant": "all texts", "anchors": ["astropysics/publication.py:TeXFile", "astropysics/publication.py:_addin_comments", "astropysics/publication.py:Comment", "astropysics/publication.py:Preamble"]}
{"id": "C131", "title": "Fields of a node", "statement": "After any history of addField, delField and item assignments, successful or not, a node lists distinct names of fields that it holds and that belong to it; adding succeeds exactly for new, assignable names and free fields; node[i], node[name] and iteration give the current values in order, an assignment changes that field only, setToSource makes the value of that source current wherever there is one.", "quantifier": "every history of calls on any number of nodes and fields, every key", "why_tests_cant": "all histories of calls on shared objects", "anchors": ["astropysics/objcat.py:FieldNode"]}
{"id": "C132", "title": "Extracting fields from a catalog", "statement": "extractField of one field gives, in the order of the traversal, the value of each selected node (the filling value, nothing, or an error where the field is missing), and its mask and errors are those of the same nodes; values and mask have equal length exactly if the filter is not callable or no selected node has the value None, sources exactly if there is no filter or every selected node has a source; 'skip' gives exactly the values of the nodes that have the field (an empty one counts), and fails if sources are asked for; 'raise' fails exactly if a node looked at lacks the field.", "quantifier": "every tree, traversal, filter, converter and treatment of missing fields", "why_tests_cant": "all trees and filters", "anchors": ["astropysics/objcat.py:FieldNode.extractFieldAtNode", "astropysics/objcat.py:FieldNode.extractField"]}
{"id": "C133", "title": "Nodes follow their class", "statement": "A node of a class with declared fields starts with exactly those fields, each with its derived value, else its default, else empty, and the class's description. After any history, alteredstruct is true exactly if addField or delField was called (successfully or not) since the node was made or last reverted, and while it is false the node has exactly the declared fields. revert leaves the declared fields with their initial values and no description and removes all others: values stored in declared fields are lost too.", "quantifier": "every class and every history of calls", "why_tests_cant": "all histories", "anchors": ["astropysics/objcat.py:StructuredFieldNode"]}
{"id": "C134", "title": "Structured nodes come back from files", "statement": "A structured node that is saved and loaded has the same fields and flag, and in every field the same non-derived values in the same order and exactly the derived value of the class, wherever the saved field had other derived values or none (it then comes first); if every derived value was the class's own the values are exactly those saved. The check on loading finds exactly the nodes whose fields are not those of the class: they are refused with 'raise', lose all values with 'revert' and are accepted otherwise.", "quantifier": "every class, every node and every setting of checkonload", "why_tests_cant": "all states", "anchors": ["astropysics/objcat.py:StructuredFieldNode.__getstate__", "astropysics/objcat.py:StructuredFieldNode.__setstate__"]}
{"id": "C135", "title": "Values from arrays arrive in the right nodes", "statement": "arrayToNodes without a matcher stores row k of an array in node k, refusing a wrong number of nodes; with a matcher, if every row matches, in the first free node that matches, and a row that matches none overwrites another node. Each column goes to its field, converted and with its errors, if the converters take one or two arguments and errors are not given for structured arrays (they are transposed there; a converter with *args shifts the flags of the later ones). arrayToCatalog makes one node for each row the filter accepts, in order, each but the last holding its row, and the last node the last row of the array, accepted or not. Other nodes, fields and sources are untouched.", "quantifier": "every array shape, number of rows and columns, field mapping, converters, matcher and filter", "why_tests_cant": "all arrays and matchers", "anchors": ["astropysics/objcat.py:arrayToNodes", "astropysics/objcat.py:arrayToCatalog"]}
{"id": "C136", "title": "Link fields", "statement": "With Source objects as keys, after any history in which nodes may cease to exist at any time, each source of a link field has at most one link, the one assigned last, and an assignment changes no other; calling the field gives the first link whose node exists and removes exactly the dead links before it, and is an IndexError exactly if there is none. A saved field can be loaded exactly if no link is dead. With strings as keys a link assigned twice cannot be found any more, and blocks the field when its node vanishes.", "quantifier": "every history of assignments, deletions, reads and vanishing nodes", "why_tests_cant": "all histories, with nodes that may vanish between any two calls", "anchors": ["astropysics/objcat.py:LinkField", "astropysics/objcat.py:LinkValue"]}
{"id": "C137", "title": "Searching a catalog", "statement": "locateName and getFieldValueNodes find exactly the nodes below the catalog whose field has the value, each once, in postorder, exactly if no node below has an empty field of that name; otherwise they raise. getFieldNames gives exactly the names of the fields that occur.", "quantifier": "every tree and every content of the fields", "why_tests_cant": "all trees", "anchors": ["astropysics/objcat.py:FieldNode.getFieldValueNodesAtNode", "astropysics/objcat.py:Catalog.locateName", "astropysics/objcat.py:Catalog.getFieldNames"]}
{"id": "C138", "title": "Spectral energy distributions", "statement": "The spectra and observations of an SED are exactly the values at positions that are not masked, in order. Masking a position hides the value there and no other, unmasking shows it again (KeyError if it was not masked), replacing and adding values changes nothing about the others; masking by source is always a ValueError. Masks are positions: after a deletion a later value is shown exactly if the position before its old one is not masked, so removing values or making one current can move masks to other values. A band is read from the first shown observation that has it, else from the first shown spectrum that covers it, and is a TypeError exactly if there is none.", "quantifier": "every list of values, set of masks and history of changes", "why_tests_cant": "all histories", "anchors": ["astropysics/objcat.py:SEDField"]}
{"id": "C139", "title": "Frame transforms are rotations", "statement": "Every matrix by which the library changes between ICRS, GCRS, equinox-based, ITRS, FK5, ecliptic, galactic and supergalactic coordinates is a proper rotation at every epoch, and that to CIRS wherever the pole of date is in the northern half; precession over an empty interval is nothing; the pole of date becomes the pole of the frame; the angles of FK5 precession are those of IAU 1976 but for the sign of two terms, so right exactly if the interval starts at J2000 or is empty, and not reversible; nutation, frame bias and Earth rotation act as published on any direction.", "quantifier": "every epoch, integer or float, or none, whatever the nutation and polar motion tables contain", "why_tests_cant": "all epochs", "anchors": ["astropysics/coords/coordsys.py:FK5Coordinates._precessionMatrixJ", "astropysics/coords/coordsys.py:CIRSCoordinates._CMatrix", "astropysics/coords/coordsys.py:ITRSCoordinates._WMatrix", "astropysics/coords/coordsys.py:GalacticCoordinates"]}
{"id": "C140", "title": "Changing the epoch of a coordinate", "statement": "Assigning an epoch to a CIRS or ITRS coordinate moves it to where the same direction has its coordinates at that epoch: any sequence of epochs ends where a direct assignment of the last one would and coming back restores the direction. Separations are kept by any sequence of epochs for all classes but ecliptic and GCRS (C145). Assigning the epoch it has moves no direction exactly if the matrix of the class for the pair is the identity: FK4 and FK5 coordinates do not move, equinox coordinates do. jdepoch reads as it was set and moves nothing; whether an epoch is held as an int or a float makes no difference to any matrix.", "quantifier": "every class, position, epoch and sequence of assignments", "why_tests_cant": "all histories of assignments", "anchors": ["astropysics/coords/coordsys.py:EpochalCoordinates._setEpoch", "astropysics/coords/coordsys.py:EpochalCoordinates._setJdepoch", "astropysics/coords/coordsys.py:EquatorialCoordinatesEquinox.transformToEpoch", "astropysics/coords/coordsys.py:FK5Coordinates.transformToEpoch"]}
{"id": "C141", "title": "Conversions keep epoch and geometry", "statement": "convert gives the direction turned by the matrices along the path, labelled with the coordinate's epoch, the first matrix taken at that epoch and every later one at the default epoch of the class it starts from (none after galactic); so a direct conversion there and back is the identity and separations are kept, while galactic to ICRS in one call is the same as step by step exactly if there is no precession between J2000 and the epoch.", "quantifier": "every path of transforms, class, position and epoch", "why_tests_cant": "all paths", "anchors": ["astropysics/coords/coordsys.py:LatLongCoordinates.convert", "astropysics/coords/coordsys.py:EpochalLatLongCoordinates.convert", "astropysics/coords/coordsys.py:LatLongCoordinates._smatrix"]}
{"id": "C142", "title": "Where the axes of galactic and ecliptic systems point", "statement": "The galactic transform puts the north galactic pole of the definition at latitude 90 and the celestial pole at the longitude of the definition; the supergalactic one its pole and origin; the ecliptic one keeps the equinox and tilts by the obliquity of the chosen model; an unknown model is refused.", "quantifier": "every pole, longitude of origin, epoch and obliquity model", "why_tests_cant": "all constants and epochs", "anchors": ["astropysics/coords/coordsys.py:GalacticCoordinates._fromFK5", "astropysics/coords/coordsys.py:SupergalacticCoordinates", "astropysics/coords/coordsys.py:EclipticCoordinatesEquinox", "astropysics/coords/funcs.py:obliquity"]}
{"id": "C143", "title": "FK4 and FK5", "statement": "Converting FK4 coordinates to FK5 and back restores the direction at B1950, without epoch, and wherever the matrix is invertible; the matrix is a rotation to 1e-15 but not exactly, and FK4 precession there and back is not exactly the identity.", "quantifier": "every position and epoch", "why_tests_cant": "all positions", "anchors": ["astropysics/coords/coordsys.py:FK4Coordinates"]}
{"id": "C144", "title": "Rectangular coordinates and units", "statement": "Changing the unit of a rectangular coordinate keeps its physical position; assigning length scales the vector along itself (ZeroDivisionError for the zero vector); the spherical form points along the vector at the distance of its length, and back gives the same vector if its unit is parsec; a vector in AU comes back in parsecs, along the same direction, and its length off by the quotient of the two constants used for the AU.", "quantifier": "every vector, unit and distance", "why_tests_cant": "all vectors", "anchors": ["astropysics/coords/coordsys.py:RectangularCoordinates", "astropysics/coords/coordsys.py:RectangularICRSCoordinates", "astropysics/coords/coordsys.py:RectangularGCRSCoordinates", "astropysics/coords/coordsys.py:RectangularGeocentricEclipticCoordinates"]}
{"id": "C145", "title": "Parallax", "statement": "Going from ICRS to GCRS moves an object at a finite distance by minus the Earth's position and leaves objects without a distance alone. Going from GCRS to ICRS does the same again (it ought to add the position), so there and back moves an object by twice the Earth's position, and is the identity for objects without a distance. A GCRS coordinate taken to another epoch goes through ICRS with this sign; a new epoch for rectangular GCRS and for ecliptic coordinates raises. The three-dimensional separation is the distance between the two positions.", "quantifier": "every position, distance, epoch and motion of the Earth", "why_tests_cant": "all positions and epochs", "anchors": ["astropysics/coords/coordsys.py:RectangularGCRSCoordinates._toRectICRS", "astropysics/coords/coordsys.py:GCRSCoordinates.transformToEpoch", "astropysics/coords/coordsys.py:AngularSeparation.separation3d", "astropysics/coords/coordsys.py:EclipticCoordinatesCIRS.transformToEpoch"]}
{"id": "C146", "title": "Arguments of the equatorial constructors", "statement": "Every documented way to give right ascension, declination, errors, epoch and distance means the same coordinate; a name given twice and two distances are refused; three, or more than six, positional arguments and unknown keywords are silently dropped; keywords beside a coordinate to copy are ignored; the default epoch is 2000, and for FK4 the epoch 2000, given or default, becomes 1950.", "quantifier": "every list of positional and keyword arguments", "why_tests_cant": "all argument lists", "anchors": ["astropysics/coords/coordsys.py:EquatorialCoordinatesBase.__init__", "astropysics/coords/coordsys.py:FK4Coordinates.__init__"]}
{"id": "C147", "title": "Air and vacuum wavelengths", "statement": "air_to_vacuum multiplies every wavelength from 2000 angstroms on by the refractive index of standard air, leaves shorter ones alone, keeps the order of wavelengths, and gives an array even for a number; vacuum_to_air divides by its own factor wherever the result is at least 2000, which reverses the order of wavelengths just above 2000, and keeps it elsewhere; the two are inverse to one part in a million, though not to the documented 0.0005 angstroms; arrays are converted element by element.", "quantifier": "every wavelength, array and setting", "why_tests_cant": "all real wavelengths", "anchors": ["astropysics/spec.py:air_to_vacuum", "astropysics/spec.py:vacuum_to_air"]}
{"id": "C148", "title": "What is measured of a spectral feature", "statement": "For a feature whose extent is inside the spectrum computeFeatureData (without a fit) gives the flux of the pixels inside the extent above the continuum, each times its width, the flux-weighted centre of those pixels and the flux divided by the mean continuum as equivalent width (inf or nan without a continuum); the order of the ends does not matter (a continuum pair is not exchanged with them); 'tweak' moves the ends to pixels without changing which are inside. A feature of four pixels or more that touches the first or last pixel of the spectrum is refused after the centre has changed, one of two pixels there gets one width for both; without a pixel inside, without an extent or with an unknown setting it raises and changes nothing.", "quantifier": "every spectrum, extent, kind of continuum and setting of edges", "why_tests_cant": "all spectra and extents", "anchors": ["astropysics/spec.py:SpectralFeature.computeFeatureData", "astropysics/spec.py:SpectralFeature.center"]}
{"id": "C149", "title": "Spacing and tests of the x-axis", "statement": "getDx gives the steps of the axis and their mean for at least two pixels; isLinear accepts, for every tolerance, exactly the evenly spaced axes and isLogarithmic exactly the geometric ones; isXMatched accepts, for every tolerance, exactly the axes of equal length that are a constant apart (so also shifted ones), and refuses other lengths.", "quantifier": "every axis and tolerance", "why_tests_cant": "all axes", "anchors": ["astropysics/spec.py:Spectrum.getDx", "astropysics/spec.py:Spectrum.getDlogx", "astropysics/spec.py:Spectrum.isLinear", "astropysics/spec.py:Spectrum.isLogarithmic", "astropysics/spec.py:Spectrum.isXMatched"]}
{"id": "C150", "title": "Resampling a spectrum", "statement": "resample reads flux and error off the straight lines between pixels (and off the end pixels outside), so that pixels keep their values, no value leaves the range of the old ones, and the own axis changes nothing; another number of pixels is refused; linearize gives an evenly spaced axis and logify a geometric one between the old ends, the ends keep their values, and doing it again changes nothing.", "quantifier": "every spectrum and new axis", "why_tests_cant": "all spectra", "anchors": ["astropysics/spec.py:Spectrum.resample", "astropysics/spec.py:Spectrum.linearize", "astropysics/spec.py:Spectrum.logify"]}
{"id": "C151", "title": "Aligning spectra", "statement": "align_spectra puts all spectra on the axis of the first one with the largest mean step, for every accepted mode ('super' does the same as 'sub'), with interpolated values, exactly if all have as many pixels as it; otherwise it raises ValueError, the spectra before the first one of another length being changed already and no other. The template is unchanged; with copy the originals are; an unknown mode or class changes nothing.", "quantifier": "every list of spectra and mode", "why_tests_cant": "all lists", "anchors": ["astropysics/spec.py:align_spectra"]}
{"id": "C152", "title": "The list of features of a spectrum", "statement": "Adding a feature puts exactly that feature at the end, or raises and leaves the list alone; removing by number takes out exactly that feature and by location one with the nearest centre, while removal by name always fails; the list can be assigned exactly while it is empty; a change of units converts the centre and replaces its error by the centre.", "quantifier": "every list of features and sequence of changes", "why_tests_cant": "all lists", "anchors": ["astropysics/spec.py:Spectrum.addFeatureRange", "astropysics/spec.py:Spectrum.removeSpectralFeature", "astropysics/spec.py:Spectrum.removeFeatureLocation", "astropysics/spec.py:Spectrum.features", "astropysics/spec.py:SpectralFeature._applyUnits"]}
{"id": "C153", "title": "Interpolation of configuration values", "statement": "In a configuration whose DEFAULT entries are sections, reading a string from a section replaces every reference in it (%(key)s, or $key, ${key} and $$ for the template engine), recursively, by the value found first in the section, its DEFAULT section, its parent, and so on; reading always ends, and fails exactly when a needed key is missing, depends on itself or is not a string, with the exception that says so. A DEFAULT entry that is no section makes such a lookup raise AttributeError and leaves interpolation switched off for good; the engine is the one of the first reading; an unknown engine switches interpolation off.", "quantifier": "every tree of sections, text and engine", "why_tests_cant": "cycles and chains of references of any length", "anchors": ["astropysics/external/configobj.py:Section.__getitem__", "astropysics/external/configobj.py:InterpolationEngine.interpolate", "astropysics/external/configobj.py:InterpolationEngine._fetch", "astropysics/external/configobj.py:ConfigParserInterpolation", "astropysics/external/configobj.py:TemplateInterpolation"]}
{"id": "C154", "title": "A configuration section is an ordered dictionary", "statement": "The bookkeeping of a section is right if keys() lists every entry exactly once, scalars before sections, and exactly the listed keys can be read and have comments. An assignment, deletion, pop, rename, clear or restored default keeps it right exactly if it is not the assignment of a refused value to a new key, a rename onto another existing key or restoring the default of an absent key; so it is right after every history without these three. Assigning keeps an entry's place and comments, renaming too; pop, popitem, setdefault and update act as for dictionaries.", "quantifier": "every history of operations", "why_tests_cant": "unbounded histories", "anchors": ["astropysics/external/configobj.py:Section.__setitem__", "astropysics/external/configobj.py:Section.__delitem__", "astropysics/external/configobj.py:Section.rename", "astropysics/external/configobj.py:Section.pop", "astropysics/external/configobj.py:Section.popitem", "astropysics/external/configobj.py:Section.setdefault", "astropysics/external/configobj.py:Section.update", "astropysics/external/configobj.py:Section.clear", "astropysics/external/configobj.py:Section.restore_default", "astropysics/external/configobj.py:Section.items"]}
{"id": "C155", "title": "Source numbers of a text table", "statement": "In a text table with a source column, whenever some value has no source of its own, every object lists exactly the numbers of the sources of its values, in increasing order, the legend names the sources in order of first appearance, each number once, and values without a source of their own get none; if every value has a source of its own the table raises ValueError.", "quantifier": "every catalog and set of columns", "why_tests_cant": "all arrangements of sources", "anchors": ["astropysics/objcat.py:TextTableAction._doAction"]}
{"id": "C156", "title": "The text of a table", "statement": "A LaTeX table without details has, between its header and its caption, one row for every object (at least one) in order with the formatted value (and errors) of every column, missing values marked, in logarithmic columns the logarithm and the right upper error (the lower one is right only where the range ends at 1); so has an ascii table with details and without caption, the details beside the wrong titles when there are errors, and a deluxetable with details and without caption, each column's note under its letter. A wrong number of details, an ascii table with neither details nor sources, a deluxetable without details, sorting (but a single object) and errors with sources (but in ascii tables of one or two objects) raise; an empty LaTeX table ends in a broken command.", "quantifier": "every catalog, set of columns and settings", "why_tests_cant": "all tables", "anchors": ["astropysics/objcat.py:TextTableAction._doAction"]}
{"id": "C157", "title": "The cache of bibliographic records", "statement": "After any history of lookups and of clearing, disabling and enabling the cache, a lookup whose record a request has given since, while the cache was on, returns that record without a request; any other lookup makes exactly one request and returns what the server says; without clearing no record is fetched twice; clearing everything works exactly while the cache is in use, clearing a code exactly if the cache holds it.", "quantifier": "every history of lookups and cache calls, and every server", "why_tests_cant": "unbounded histories and an arbitrary server", "anchors": ["astropysics/objcat.py:Source._getADSXMLRec", "astropysics/objcat.py:Source.clearADSCache", "astropysics/objcat.py:Source.useADSCache"]}
{"id": "C158", "title": "Bibliographic codes of sources", "statement": "setBibcode keeps the code that the first line marked so on the ADS page of the given location states, unsets it for None and the empty string, is a TypeError for anything but a text, and leaves the code unchanged when it fails; the page asked for is that of the arXiv identifier (arXiv: or astro-ph:), DOI (a blank after doi: stays in the address), address or bibcode given, except that the word arXiv is cut out of the bibcode of a preprint and the rest asked as an identifier; title, abstract and date are read exactly if the record has one element of the kind with a text, and authors are the texts of the author elements, in order.", "quantifier": "every location, page and record", "why_tests_cant": "all texts", "anchors": ["astropysics/objcat.py:Source.setBibcode", "astropysics/objcat.py:Source._findADScode", "astropysics/objcat.py:Source.title", "astropysics/objcat.py:Source.authors"]}
{"id": "C159", "title": "Keywords of an action apply to one call only", "statement": "Keyword arguments of a call of a plotting action set the attributes of these names for that call and only for it, whatever happens during the call, unless a keyword names a read-only property, when the ones set before stay set; unknown keywords change nothing; a constructor sets the documented attributes from keywords and defaults, or fails and leaves the node attached to its parent; unpickling restores the attributes except those the class has a value for.", "quantifier": "every node, set of keywords and behaviour of the plot", "why_tests_cant": "exceptions at every point", "anchors": ["astropysics/objcat.py:MatplotAction._doAction", "astropysics/objcat.py:MatplotAction.__init__", "astropysics/objcat.py:ActionNode.__setstate__"]}
{"id": "C160", "title": "Plots of two fields", "statement": "A lines or scatter plot of a catalog has exactly one point for every object, at its own two values (or logarithms), in the order of traversal or sorted by an axis, missing values last; an error bar plot on linear axes has the bars from the lower to the upper error of the same object at its own point, also after sorting; error bars on logarithmic axes, histograms and unknown kinds always fail; a graph action works exactly for nodes without descendants.", "quantifier": "every catalog and settings", "why_tests_cant": "all catalogs", "anchors": ["astropysics/objcat.py:PlottingAction2D._doAction", "astropysics/objcat.py:GraphAction._doAction"]}
{"id": "C161", "title": "The observatory database", "statement": "Every observatory of the database file becomes a registered site made only of the lines of its own entry (the last of each kind): longitude the degrees west turned into degrees east, altitude, time zone with the sign flipped, name; missing entries take the defaults and nothing is carried over from the entry before; the latitude stored is degrees plus minutes/60, which is the latitude written exactly if there are no seconds and, in the south, no minutes. The file loads exactly if every line has one equals sign, every number can be read and every latitude is between the poles.", "quantifier": "every database text", "why_tests_cant": "all texts, orders and omissions of entries", "anchors": ["astropysics/obstools.py:__loadobsdb", "astropysics/data/obsdb.dat"]}
{"id": "C162", "title": "Observing sites keep sane coordinates", "statement": "A new site is accepted exactly if its latitude is in [-90,90] and its altitude a number; it then has the latitude it was given and the longitude it was given up to full turns, in [-180,180), and changes of its angle objects keep these ranges; a wrong latitude is refused without effect, a wrong altitude leaves the caller's angle objects with the new ranges; if one object serves as both angles it loses the range of the latitude; what is assigned to latitude or longitude later is not checked and shared. The default time zone is the whole hour nearest to the longitude; the geocentric latitude reads as it was set.", "quantifier": "every argument, sharing of angle objects and history of assignments", "why_tests_cant": "aliasing and unbounded histories", "anchors": ["astropysics/obstools.py:Site.__init__", "astropysics/obstools.py:Site.latitude", "astropysics/obstools.py:Site.longitude", "astropysics/obstools.py:Site.geocentriclat", "astropysics/obstools.py:Site._tzFromLong"]}
{"id": "C163", "title": "Stellar masses from colours", "statement": "The stellar masses listed for a galaxy are, for the bands in the order the dictionary of magnitudes is iterated, the luminosity in the band times the ratio the published table has in the column of that position; they belong to their bands exactly if that order is the table's (which CPython 2's is not). The first value is their mean; ratios are positive and grow with the colour; a missing magnitude of the colour is an error.", "quantifier": "every set of magnitudes, colour and iteration order of dictionaries", "why_tests_cant": "all values and the unspecified order of a dictionary", "anchors": ["astropysics/phot.py:M_star_from_mags_SDSS", "astropysics/phot.py:ML_ratio_from_color_SDSS"]}
{"id": "C164", "title": "Merging, copying and walking configuration sections", "statement": "After a.merge(b) a setting is at a path exactly if b has it there, or a had it and nothing of b stands in its way; keys keep their places and new ones follow in order; b is not changed; a and b afterwards share exactly the sections of b that had no counterpart in a. dict() is a deep copy with the same settings at the same places. walk calls the function exactly once for every setting (and section, if asked for), parents before children and scalars before sections, returns its results in the shape of the tree, and raises the first exception or, on demand, none; after a merge that overwrites a subsection by a setting every walk fails.", "quantifier": "every pair of trees of sections, every path and function", "why_tests_cant": "trees of any depth and arbitrary functions", "anchors": ["astropysics/external/configobj.py:Section.merge", "astropysics/external/configobj.py:Section.dict", "astropysics/external/configobj.py:Section.walk", "astropysics/external/configobj.py:Section.__setitem__"]}
{"id": "C165", "title": "Preparing a submission to arXiv touches only its own directory", "statement": "prep_for_arxiv_pub makes newdir, or replaces it if asked to, or else makes the first free newdir_2, newdir_3, ...; whatever happens, nothing else is changed or deleted. If it succeeds the directory holds the document, every figure file that exists where the document refers to it, directly and under its base name (of equal base names the last), the .bbl file (or else the .bib file), and an archive of exactly these files. It never succeeds with a relative newdir of several parts.", "quantifier": "every file system, document, directory name and set of extensions", "why_tests_cant": "all directory contents, name clashes and failure points", "anchors": ["astropysics/publication.py:prep_for_arxiv_pub", "astropysics/publication.py:Figure.filenames"]}
{"id": "C166", "title": "Preparing a submission to ApJ renames figures consistently", "statement": "prep_for_apj_pub chooses the directory like prep_for_arxiv_pub and touches nothing else. Figure files are renamed f1, f2, ... or f1a, f1b, ... in the order of the document, no two the same, for every order of the dictionary; the document refers to the new names and every file is in the directory under the name that its last figure gives it; the bibliography becomes ms.bib and ms.bbl, the document ms.tex, and ms.tar.gz contains exactly these. plotfiddle and a missing .bib file make it fail.", "quantifier": "every file system, document and iteration order of dictionaries", "why_tests_cant": "all documents and reuse of files, unspecified dictionary order", "anchors": ["astropysics/publication.py:prep_for_apj_pub", "astropysics/publication.py:Figure._setFilenames"]}
{"id": "C167", "title": "Values of the dust maps", "statement": "get_SFD_dust with a pair of files gives for every direction the value of the map of its own hemisphere at the position of the equal-area projection (the nearest pixel if interpolate is False), each value at the place of its direction however the hemispheres are mixed, a number for numbers; different directions have different positions; without interpolation the equator at longitudes 0 and 270 is outside a map with an even number of pixels. A map can be given by name or as a pattern; a single file and get_dust_radec always fail.", "quantifier": "every direction, list of directions, map and file name", "why_tests_cant": "all directions including poles and equator, all mixtures", "anchors": ["astropysics/obstools.py:get_SFD_dust", "astropysics/obstools.py:get_dust_radec"]}
{"id": "C168", "title": "Gauss-Hermite line profiles", "statement": "GaussHermiteModel evaluates, for any positive number of coefficients, the Gaussian times the Hermite series; gaussHermiteMoment of the model itself returns 1, 0, 0 and then exactly the coefficients, because the polynomials are orthogonal. Without coefficients an exception or an empty array results.", "quantifier": "every number of coefficients and every parameter value", "why_tests_cant": "any number of coefficients, integrals over all velocities", "anchors": ["astropysics/models.py:GaussHermiteModel"]}
{"id": "C169", "title": "Reading an angle from text", "statement": "AngularCoordinate(text) for numbers without exponents accepts exactly these forms, each text having one reading only: a number, or degrees (d, degrees), hours (h), radians, or colons or blanks, with optional minutes and seconds, an optional sign and surrounding blanks, or nothing (0). The value is sign*(first + minutes/60 + seconds/3600) in its unit, except that of two numbers separated by a blank the second counts as seconds, and of two unsigned ones with a colon, minutes and seconds of a degree (signed ones are refused). A unit letter decides over the arguments sghms and radians, a sexagesimal text without unit is hours if sghms is True, degrees if it is False, and by its sign otherwise; everything else is ValueError.", "quantifier": "every text and every combination of the arguments", "why_tests_cant": "the set of texts is infinite and ambiguity of the grammar shows only on all of them", "anchors": ["astropysics/coords/coordsys.py:AngularCoordinate.__init__", "astropysics/coords/coordsys.py:AngularCoordinate._acregex", "astropysics/coords/coordsys.py:AngularCoordinate._decregex"]}
{"id": "C170", "title": "Printing an angle and reading it back", "statement": "str(angle), getDmsStr and getHmsStr give the sign, the whole degrees or hours, minutes and padded seconds each followed by its separator, and AngularCoordinate of that text, with unit letters or colons, is the angle again up to the rounding of the seconds (but for carries into negative degrees); the default separators with the degree sign cannot be read back, nor a sign with inclzero=False; sep='dms' and 'hms' raise TypeError. getCoordinateString joins both angles with their names and is a TypeError with hmslong.", "quantifier": "every angle, separator, precision, width and constructor arguments", "why_tests_cant": "all angles, carries at sixty and all separators", "anchors": ["astropysics/coords/coordsys.py:AngularCoordinate.getDmsStr", "astropysics/coords/coordsys.py:AngularCoordinate.getHmsStr", "astropysics/coords/coordsys.py:AngularCoordinate.__str__", "astropysics/coords/coordsys.py:LatLongCoordinates.getCoordinateString"]}
{"id": "C171", "title": "Sequences of positions as text", "statement": "radec_str_to_decimal(ras,decs) gives the degrees of every text at its place, right ascensions without a unit as hours and declinations as degrees, and raises ValueError exactly if the lengths differ or a text cannot be read; positions printed in the canonical form come back up to the rounding of the seconds. With one argument it always raises UnboundLocalError. angular_string_to_dec(text,hms,degrees) is the angle of the text whatever hms says.", "quantifier": "every list of texts and every position", "why_tests_cant": "lists of any length and every text", "anchors": ["astropysics/coords/funcs.py:radec_str_to_decimal", "astropysics/coords/coordsys.py:angular_string_to_dec"]}
{"id": "C172", "title": "Arrays of coordinates and projected separations", "statement": "objects_to_coordinate_arrays gives for every name one array with that attribute of all objects in order, in degrees or radians, and raises NameError with 'auto'. offset_proj_sep gives for every point and direction the component of the point along the line of sight (not the separation perpendicular to it, which it is called after).", "quantifier": "every list of objects, names, points and directions", "why_tests_cant": "any number of objects and all vectors", "anchors": ["astropysics/coords/coordsys.py:objects_to_coordinate_arrays", "astropysics/coords/funcs.py:offset_proj_sep"]}
{"id": "C173", "title": "Redshifts of pixel lags", "statement": "lag_to_z(x,lag) gives, for a lag other than 0 and shorter than the axis, for every pixel i with a partner i+lag the redshift x[i+lag]/x[i]-1, and for the others the mean of these (or 0); on a logarithmic axis all are q^lag-1; the lag 0 gives nan for every pixel.", "quantifier": "every axis and integer lag", "why_tests_cant": "all axes, lags of both signs and the lag 0", "anchors": ["astropysics/spec.py:lag_to_z"]}
{"id": "C174", "title": "Redshifts by template fitting", "statement": "zfind compares, for every lag asked for, pixel i of the templates with pixel i+lag of the spectrum wherever both exist; the coefficients make the sum of squared residuals, weighted with the inverse variances if they differ, least among all combinations; the best lag is that of least reduced unweighted sum of squares, so that a pixel of inverse variance 0 can decide it; redshifts belong to their lags, that of lag 0 being nan; an array with as many templates as pixels is not transposed.", "quantifier": "every spectrum, set of templates and lags", "why_tests_cant": "minimality over all coefficient vectors, all spectra", "anchors": ["astropysics/spec.py:zfind"]}
{"id": "C175", "title": "Model spectra with noise", "statement": "A ModelSpectrum has, after each assignment to x, noisefunc or noisetype that does not raise, the flux of the model on the current axis, plus normal or times Poisson noise of the current scales if there is a noise type, its attributes being consistent after any history; the errors are those that the flux before the assignment gives. A refused assignment of a noise type changes nothing; noisetype=None leaves the noise in the flux, noisefunc=None makes later assignments to x raise TypeError after changing x; with Poisson noise x cannot change its length; the constructor raises AttributeError for any noise function.", "quantifier": "every model, axis, noise function, random numbers and history of assignments", "why_tests_cant": "histories of any length and all noise functions", "anchors": ["astropysics/spec.py:ModelSpectrum", "astropysics/spec.py:FunctionSpectrum"]}
{"id": "C176", "title": "Linear spectra from FITS files", "statement": "load_wcs_spectrum uses the extension asked for, else the first with the keywords; pixel i has the wavelength CRVAL1+i*dispersion (CD1_1 before CDELT1), its own flux and the error that the same entry of the error extension stands for (err, ierr, var or ivar), ordered by wavelength; other headers are ValueError, no suitable extension is IOError; wavelengths are those of the FITS standard exactly if CRPIX1 is 1 (it is ignored); a flux array of one row is accepted, errors of one row are not.", "quantifier": "every FITS file, choice of extensions and error type", "why_tests_cant": "all headers, arrays and combinations of arguments", "anchors": ["astropysics/utils/io.py:load_wcs_spectrum", "astropysics/spec.py:Spectrum"]}
{"id": "C177", "title": "DEIMOS spectra", "statement": "load_deimos_spectrum gives all pixels of both arms (or of the one there is), ordered by wavelength, with fluxes and errors of the same pixels; the sky is that of the same pixels if the arms do not overlap, since it is not sorted with them; smoothing keeps the wavelengths; raw data of a file with one arm raise UnboundLocalError; other names, extractions and files without the extension are refused. load_all_deimos_spectra gives exactly the files that can be loaded, each with its own spectrum.", "quantifier": "every file, set of file names and pattern of failures", "why_tests_cant": "all files and subsets of failing files", "anchors": ["astropysics/utils/io.py:load_deimos_spectrum", "astropysics/utils/io.py:load_all_deimos_spectra"]}
{"id": "C178", "title": "Text tables with a field line", "statement": "loadtxt_text_fields gives an array with exactly the fields of the field line in its order: a field name:type is the column of the file at its place among the fields without expression, a field name:type:expr is the expression evaluated with the columns of the file (not with other derived ones). An unknown type is TypeError, a repeated name or a field of another number of parts ValueError; with a delimiter the line end stays in the last type. FixedColumnDataParser.writeFile refuses data that do not match the columns without touching the file, and raises AttributeError for all others after emptying it.", "quantifier": "every field line, file, type system and expression language", "why_tests_cant": "all field lines and tables", "anchors": ["astropysics/utils/io.py:loadtxt_text_fields", "astropysics/utils/io.py:FixedColumnDataParser.writeFile"]}
{"id": "C179", "title": "Validating a configuration", "statement": "validate with a validator that is any function raises exactly if a section stands where a setting with a default is expected, and otherwise returns True exactly if every setting of the configspec is there (or has a default) and passes its check, other settings pass __many__ if there is one, sections and values are not exchanged, and every subsection fits its own spec (or that of __many__). Afterwards each setting that passed has the converted value or the default, marked as such; one that failed, and everything outside the configspec, is unchanged; missing sections exist. A dictionary says for each name what happened; False means that no setting of the section passes, though without preserve_errors settings of subsections may.", "quantifier": "every configuration, configspec and validator, any depth of nesting", "why_tests_cant": "needs all trees and validators", "anchors": ["astropysics/external/configobj.py:ConfigObj.validate", "astropysics/external/configobj.py:ConfigObj._set_configspec"]}
{"id": "C180", "title": "Lists of errors and unknown names", "statement": "flatten_errors lists exactly the failures in a result of validate, each with its sections (None as name if a section is missing or stands for a value; a value that stands for a section is given by its name), and get_extra_values exactly the settings and sections outside the configspec, each with its sections.", "quantifier": "every configuration, configspec, result, any depth", "why_tests_cant": "needs all trees", "anchors": ["astropysics/external/configobj.py:flatten_errors", "astropysics/external/configobj.py:get_extra_values"]}
{"id": "C181", "title": "Cumulative curves", "statement": "cumulative_plot with N(<x) gives every one of different data the number of data below it, with N(>x) that of the data above it; with edges the curve has a point for every datum strictly between them, numbered consecutively from the number of data at or beyond the first edge, and ends at the other edge (N(<x) also starts at the lower one, with 0); with frac the numbers are scaled so that the last point is that fraction, nan if it was 0; N(>x) with one edge only raises.", "quantifier": "every list of data, edges and fraction", "why_tests_cant": "all data sets and edges", "anchors": ["astropysics/plotting.py:cumulative_plot"]}
{"id": "C182", "title": "Panels, subsets and steps of plots", "statement": "square_subplot_dims(n) gives the fewest columns whose square is at least n and the fewest rows with which there are n panels. split_histograms puts each value into the subset between whose edges its edge value is (lower edge included), so into exactly one if it is from the first to below the last edge; edges that do not increase, other numbers of colors or styles and missing edge values are ValueError. plot_histogram needs one edge more than bins and draws each bin from its lower to its upper edge.", "quantifier": "every number of panels, lists of values, edges and bins", "why_tests_cant": "all lists of values and edges", "anchors": ["astropysics/plotting.py:square_subplot_dims", "astropysics/plotting.py:split_histograms", "astropysics/plotting.py:plot_histogram"]}
{"id": "C183", "title": "Tables of planets", "statement": "The orbital elements of each planet are those of its lines in the tables, whatever comments and empty lines there are, each element with its own rate; the objects of the table for 3000 BC to 3000 AD are called <name>-long, and the additional terms of table 2b are read for every planet in it but, being looked up under the name with -long, never reach an object.", "quantifier": "every file of elements and of corrections", "why_tests_cant": "all files", "anchors": ["astropysics/coords/ephems.py:_load_jpl_orb_elems", "astropysics/coords/ephems.py:_keplerian_ephems"]}
{"id": "C184", "title": "Disk profiles", "statement": "ExponentialDiskModel is A exp(-|s/l|) exp(-|z/h|) and ExponentialSechSqDiskModel A exp(-|s/l|) sech^2(z/h), turned counter-clockwise by pa; the centre has the value A, the largest; they are symmetric about the centre and fall by the factor e for each scale length; the range hint of the exponential disk contains all but the faint parts, that of the sech^2 disk leaves out one half of it.", "quantifier": "all parameters, positions and angles", "why_tests_cant": "all real parameters and points", "anchors": ["astropysics/models.py:ExponentialDiskModel", "astropysics/models.py:ExponentialSechSqDiskModel"]}
{"id": "C185", "title": "Typed access to settings and all defaults", "statement": "as_bool gives True for the words True, On, Yes, 1 and False for False, Off, No, 0 in any case and for the equal objects, and ValueError for every other value; as_int and as_float give the number or ValueError; as_list gives lists and tuples as lists, any other value in a list; a missing key is KeyError. restore_defaults gives every setting at any depth that has a default value this value and the mark, and changes nothing else; it fails exactly if a setting with a default value is now a section.", "quantifier": "every value, every tree of sections", "why_tests_cant": "all strings, all trees", "anchors": ["astropysics/external/configobj.py:Section.as_bool", "astropysics/external/configobj.py:Section.as_list", "astropysics/external/configobj.py:Section.restore_defaults"]}
{"id": "C186", "title": "Zero points of bands", "statement": "compute_band_zpts(spectrum) gives this spectrum the magnitude 0 in each of the bands named; with a number it multiplies the zero point of a band by it once for each time the band is named, so magnitudes rise by 2.5 log10 of it. set_zeropoint_system('AB') gives the AB spectrum the magnitude 0, 'vega##' in any case gives the model of Vega the magnitude ## (0 without a number); every other name is ValueError and changes nothing. Other bands and all other data of the bands are unchanged. An exception at one band leaves the bands named before it changed and the others as they were.", "quantifier": "every registry of bands, every choice of bands (with repetitions), every spectrum, number and name", "why_tests_cant": "all lists of bands and all spectra", "anchors": ["astropysics/phot.py:compute_band_zpts", "astropysics/phot.py:set_zeropoint_system"]}
{"id": "C187", "title": "Flux densities and spectra of observations", "statement": "getBandInfo gives centers and widths in the unit asked for and leaves the units of the bands as they were; with one value per band getFluxDensity divides every flux and error by the width of its band and toSpectrum puts the flux of each band at its center, divided by its width; with m values for each of n bands entry (i,j) gets width and center of band (i m + j) mod n, which is right for all exactly if n = 1 or m = 1.", "quantifier": "every set of bands, every shape of the observation", "why_tests_cant": "all arrays of fluxes", "anchors": ["astropysics/phot.py:PhotObservation.getBandInfo", "astropysics/phot.py:PhotObservation.getFluxDensity", "astropysics/phot.py:PhotObservation.toSpectrum"]}
{"id": "C188", "title": "Simulated images", "statement": "simulate gives the model on the number of pixels of the size asked for around its centre, blurred with a Gaussian psf of the full width given, then the background is added, then the noise; a measured psf is a NameError and arrays as psf, background or noise a ValueError.", "quantifier": "every number and scale of pixels, psf, background and noise", "why_tests_cant": "all combinations of arguments", "anchors": ["astropysics/phot.py:ModelImageSimulator.simulate"]}
{"id": "C189", "title": "Settings over several lines", "statement": "A value with line breaks or with both kinds of quotes is written between triple quotes: three single ones unless it has three double quotes inside, then three double ones; with both inside it is refused. Reading gives back the same value, its comment and the next lines, exactly if no line of the value but the last has these quotes inside and the last has no place where the quotes are followed by white space and #; so always if it has no triple quotes inside.", "quantifier": "every text (without carriage returns), every comment, every rest of the file", "why_tests_cant": "all texts", "anchors": ["astropysics/external/configobj.py:ConfigObj._get_triple_quote", "astropysics/external/configobj.py:ConfigObj._multiline", "astropysics/external/configobj.py:ConfigObj._quote"]}
{"id": "C190", "title": "Settings as Python literals", "statement": "With unrepr=True a setting that is written and read again is equal to what it was exactly if it is not itself a dictionary and consists of None, truth values, numbers, texts, lists, tuples and dictionaries, where floats are finite and complex numbers have no real part or a positive real part and an imaginary part that is not negative. Every other value is an error, never another value.", "quantifier": "every nesting of values", "why_tests_cant": "all nested values", "anchors": ["astropysics/external/configobj.py:unrepr", "astropysics/external/configobj.py:Builder", "astropysics/external/configobj.py:ConfigObj._write_line"]}
{"id": "C191", "title": "Encodings of configuration files", "statement": "Byte order marks of UTF-8 and, with the order of the computer, of UTF-16 are recognised and never part of the text, that of the other order stays in it; without a given encoding a file without mark or with that of UTF-8 is left as bytes and written back the same, a UTF-16 file is decoded. A file written in an 8-bit encoding is read back as the same text with a line break at the end; one written in UTF-16 is read back exactly if the last byte happens to be 10 and is a UnicodeDecodeError otherwise; lists of lines are an AttributeError exactly in utf_16.", "quantifier": "every text, encoding and order of bytes", "why_tests_cant": "all byte sequences", "anchors": ["astropysics/external/configobj.py:ConfigObj._handle_bom", "astropysics/external/configobj.py:ConfigObj._decode", "astropysics/external/configobj.py:ConfigObj.write"]}
{"id": "C192", "title": "Sections in configuration files", "statement": "With raise_errors=True a configuration file is accepted exactly if every section marker has as many closing as opening brackets and is at most one level deeper than the marker before it, every other line is a setting, and no two sections or settings have the same full name; then a marker of depth d opens a section inside the d-1 outer sections of the current one and every setting is in the current section, in the order of the file. Otherwise the error of the first line that breaks this is raised, of the kind that fits (nesting, duplicate, parse). Without raise_errors the same files are accepted, and every other one raises an error; it is UnboundLocalError exactly if the first marker is deeper than one level. A configuration of any nesting that is written and read again has the same sections and settings with the same values in the same order.", "quantifier": "every list of lines, every nesting of sections with any names and values", "why_tests_cant": "nesting is unbounded and every line depends on all lines before it", "anchors": ["astropysics/external/configobj.py: ConfigObj._parse, _match_depth, _load, write"]}
{"id": "C193", "title": "Section names in configuration files", "statement": "A section name that is not blank and either needs quotes (comma, #, blank or quote at an end) or neither begins with [ (or a form feed) nor ends with ] (or a form feed) is, after write and read, a section with the same name, depth and comment. A name written without quotes that has brackets at its ends is read as what is between them, one level deeper for every opening bracket, and is refused (NestingError) if they are not balanced: a section '[a]' silently comes back as 'a' one level deeper. No line whatever is read as a section with a blank or empty name, so such a section is lost. A line that is taken as a section marker consists of blanks, opening brackets, the name, closing brackets, blanks and a comment, and its two depths are the numbers of brackets.", "quantifier": "every name, depth, indentation and comment", "why_tests_cant": "the names range over all texts; the regular expression backtracks", "anchors": ["astropysics/external/configobj.py: ConfigObj._sectionmarker, _write_marker, _quote, _unquote, _parse"]}
{"id": "C194", "title": "Geographic and geocentric latitudes", "statement": "For a point on the meridian ellipse of the WGS84 Earth away from the poles, geographic_to_geocentric_latitude takes the direction of the outward normal to the direction of the point, and geocentric_to_geographic_latitude does the opposite. Between the poles the two undo each other, keep the order of latitudes, the equator and the mirror symmetry of north and south; the geocentric latitude is nearer to the equator by at most arctan((a\u00b2-b\u00b2)/(2ab)); a latitude beyond a pole loses its half turns. The argument may be an angle object or a number of degrees; of a sequence or text only the first member is used if there are one or two (so '45' means 4 degrees), and three or more (degrees, minutes and seconds, or a text such as '45.5') are an error.", "quantifier": "every latitude, every point of the ellipse, every sequence or text", "why_tests_cant": "real numbers; texts of any length", "anchors": ["astropysics/coords/funcs.py: geographic_to_geocentric_latitude, geocentric_to_geographic_latitude", "astropysics/constants.py: Rea, Reb", "astropysics/coords/coordsys.py: AngularCoordinate.__init__"]}
{"id": "C195", "title": "The edges of a feature at a location", "statement": "On a spectrum with increasing x, addFeatureLocation(loc) with a continuum, a window and no smoothing gives a feature whose edges are the x values of the nearest pixels in the window, on either side of loc, whose flux is not exactly the continuum (usually the two neighbouring pixels, not the zero points of the feature); it contains loc, and it is an IndexError if there is no such pixel on one side. With window=None the location is not used at all: the edges are around the middle of the spectrum. A boxcar filter (smooth <= 0) is always an ImportError. Without a continuum, whether a turning point of the flux is an edge is decided by the flux at other pixels (the first ones of the window), so it is an IndexError whenever the flux does not turn at the first pixels of the window, as many as there are turning points.", "quantifier": "every spectrum, continuum, location and window", "why_tests_cant": "x axes, fluxes and windows are unbounded; the pixels that decide are far from the location", "anchors": ["astropysics/spec.py: Spectrum.addFeatureLocation"]}
{"id": "C196", "title": "Model spectra", "statement": "build_model_spectrum gives n evenly spaced pixels from one end of the range to the other; without noise (or with noise=0) the flux of a pixel at x is the blackbody plus all lines at x/(1+z) and all errors are zero; a source at redshift z over the range stretched by 1+z has the fluxes and errors of the source at rest. A line of three numbers is gaussian if its width is positive and lorentzian with minus the width otherwise, one of four is a voigt profile, a model is itself, and it is a ValueError exactly if some line is anything else. Multiplicative noise changes the flux by at most the given fraction and keeps it nonnegative if the fraction is at most one; with poisson noise the error is the square root of the drawn flux. With additive or multiplicative noise the error of a pixel is exactly its deviation from the noiseless spectrum (not the amplitude of the noise).", "quantifier": "every range, redshift, list of lines, amplitude and all random draws", "why_tests_cant": "the random draws and the lines range over unbounded domains", "anchors": ["astropysics/spec.py: build_model_spectrum, Spectrum.__init__"]}
{"id": "C197", "title": "Browsing spectra in Spylot", "statement": "In Spylot, for nonempty lists of spectra whose continua are functions or absent: after any history of moving left and right, choosing an existing number, editing the redshift, zooming the slider, loading lists that reach the current number and deleting spectra other than the last, the plot shows the current spectrum and the slider is at its redshift. The width of the slider is 2 to the number of coarser minus finer presses whatever else happens, and after a zoom or a move to another redshift its limits are not negative and contain the redshift exactly if it is not negative. Deleting the last of several spectra leaves the deleted one in the plot while redshift edits go to the one before; a number that does not exist is accepted, and the next existing number chosen after it is not shown; adding a spectrum from a file never adds it; a spectrum with an array as continuum is shown with the redshift of the one before.", "quantifier": "all lists of spectra and all histories of user actions", "why_tests_cant": "histories are unbounded sequences of actions", "anchors": ["astropysics/gui/spylot.py: Spylot._currspeci_changed, _spechanged_fired, _specleft_fired, _specright_fired, _delcurrspec_fired, _loadspeclist_fired, _loadaddspec_fired, _z_changed, _coarserz_changed, _finerz_changed"]}
{"id": "C198", "title": "Target priorities", "statement": "SpecTarget's priorities are all between zero and one (offsets not all zero, power not negative). Without a band weight an object has priority one exactly if it is on the fiducial and zero exactly if none is farther, and the nearer of two objects has strictly the higher priority. With a band weight and a band that is not constant, the brighter of two objects at the same offset and the nearer of two equally bright ones has strictly the higher priority, some object has priority zero, and some has one unless band and offset cancel for all; the sign of the weight makes no difference at all. Objects of group 0 have priority zero if they are hidden.", "quantifier": "all offsets, bands, weights, powers and groups", "why_tests_cant": "reals and arrays of any size", "anchors": ["astropysics/gui/spectarget.py: SpecTarget._get_priorities, _get_g0m"]}
{"id": "C199", "title": "The mask file", "statement": "In the file for the mask program every object has exactly one role: guide star (-1), alignment star (-2) or target (its priority times 1000 rounded down, 0 to 1000). Objects brighter than the guide (else alignment) cutoff with a priority under the limit are stars, except those of group 1 if these are kept; groups -1 and -2 are guide and alignment stars unless bright enough for the other use. Without groups the group column is 2 if fainter than the cutoff and else 1; with groups stars have 6 and targets their group, or 5 if fainter than the cutoff (targets only for positive groups). An object is left out exactly if it is a target of group -9. In the second file every object brighter than the second cutoff that is not preselected is an alignment star, so no guide star chosen by brightness is left in it if the second cutoff is not brighter than the first.", "quantifier": "all objects, cutoffs and groups", "why_tests_cant": "magnitudes and priorities are reals", "anchors": ["astropysics/gui/spectarget.py: SpecTarget._guidealignmasks, DEIMOSMaskMaker.writeInFile, DEIMOSMaskMaker.secondFile"]}
{"id": "C200", "title": "Names of successive masks", "statement": "If the mask file name ends in a digit (up to trailing white space), the names and the files of all masks made one after another are different, however many; otherwise the name stays and the next mask overwrites the file. After a letter or nothing the number counts up by one (without leading zeros); after a dash it counts down to zero. A short name over the limit is accepted; the next different name is then refused if it is within the limit (the old one is cut) and cut if it is not, so from the initial short name with limit six the eleventh mask has the name of the first.", "quantifier": "all names and any number of masks", "why_tests_cant": "unbounded histories and texts", "anchors": ["astropysics/gui/spectarget.py: SpecTarget._makemaskbutton_fired, _maskshortname_changed, DEIMOSMaskMaker.makeMask"]}
{"id": "C201", "title": "Nutation", "statement": "The nutation angles of an epoch are those of the IAU 2000B series, in radians, at Julian centuries from J2000, with fixed offsets of -0.135 and 0.388 milliarcseconds; an epoch and its Julian date give the same angles; reducing the arguments to one turn changes nothing, so the angles are continuous in time; the order of the table does not matter. They stay below 19.475 and 10.088 arcseconds for a century around J2000 and 21.3 and 10.3 for ten thousand years; the nutation matrix moves no direction by more than the sum of the two. So within ten thousand years of J2000 the CIRS matrix is a rotation that takes the pole of date to the pole.", "quantifier": "every epoch (bounds: the stated range), every table for the general part", "why_tests_cant": "a continuum of epochs", "anchors": ["astropysics/coords/coordsys.py:_nutation_components2000B", "astropysics/coords/coordsys.py:_nutation_matrix", "astropysics/data/iau00b_nutation.tab"]}
{"id": "C202", "title": "The CIO locator series", "statement": "The CIO locator is, besides -xy/2, the sum over the orders i of (p_i + sum of s sin a + c cos a) T^i arcseconds, in radians, with the arguments of the IERS 2003 conventions; reducing them by fmod, whose remainders have either sign, changes nothing. It is computed exactly if there are no more orders than coefficients and no order is empty, as in the file of the package, whose series is below 0.081 arcseconds within a century of J2000.", "quantifier": "every epoch and table", "why_tests_cant": "a continuum of epochs", "anchors": ["astropysics/coords/coordsys.py:CIRSCoordinates._CIOLocator", "astropysics/coords/ephems.py:_mean_anomaly_of_moon", "astropysics/data/iau00_cio_locator.tab"]}
{"id": "C203", "title": "Files of nutation and locator series", "statement": "A nutation file loads exactly if every line that is neither blank nor starts with # is a row of numbers separated by single spaces, 11 for a lunisolar and 17 for a planetary series, and then gives the columns of the rows in the order of the file; another kind of series is a ValueError. A locator file with the polynomial, then headings of orders with their terms, gives the polynomial and the terms of each order; terms before the first heading are ignored; without the polynomial it never loads. Comments and blank lines can be anywhere.", "quantifier": "every text", "why_tests_cant": "all texts", "anchors": ["astropysics/coords/coordsys.py:_load_nutation_data", "astropysics/coords/coordsys.py:_load_CIO_locator_data"]}
{"id": "C204", "title": "Mosaics of objects", "statement": "Without row numbers the objects of a mosaic fill the panels in reading order; the grid has the fewest columns whose square holds them all, and then the fewest rows. With an array of integer row numbers from 1 on every object is in its row, after the earlier objects of this row, and no two objects share a panel; the grid has as many rows as the largest number and as many columns as the fullest row needs. A single row number, a list, a tuple or floats always fail (TypeError or AttributeError). Every image that is not in the dictionary is loaded exactly once, and the dictionary keeps what it had.", "quantifier": "every number of objects and list of rows and images", "why_tests_cant": "unbounded sizes", "anchors": ["astropysics/ccd.py:mosaic_objects", "astropysics/ccd.py:load_image_file"]}
{"id": "C205", "title": "Sessions of the installation tool", "statement": "Whatever lines are typed, only listed packages are tried, the machine is only changed by these attempts, 'sudo' is used only if asked for and only after 'a', and the tool reports that nothing is left to do exactly when everything is installed (unless it was quit or a number out of range ended it with IndexError). 'a' tries exactly the packages not installed when their turn comes, in order, whatever fails; if installations work it finishes the tool. A number from 1 on tries that package without prefix; zero and negative numbers count from the end; other texts and information change nothing, but after existing information the next line is swallowed.", "quantifier": "every list of lines, every behaviour of installations", "why_tests_cant": "unbounded histories of inputs", "anchors": ["astropysics/config.py:run_install_tool", "astropysics/config.py:PackageInstaller.isInstalled"]}
{"id": "C206", "title": "Selecting points with a lasso", "statement": "After any history, activating, pressing in the axes and closing a lasso selects exactly the points inside of all artists that have points, in order; further presses and a deactivation keep the selection; before the first lasso asking is a TypeError. Matching gives every row of a table that equals a selected point, as often as it was selected; keys are exactly those of objects at a selected point. Dictionaries and tables given last are used again. Activating again keeps the positions of the old selection, so the new points in these places are reported, wherever they are.", "quantifier": "every history of events, every lasso and table", "why_tests_cant": "unbounded histories", "anchors": ["astropysics/plotting.py:ScatterLasso"]}
{"id": "C207", "title": "Margins in dots", "statement": "Every margin given to subplots_adjust_points becomes that many dots of the figure, from its own side, and what is not given is left alone; it is that many points only at 72 dots per inch.", "quantifier": "every figure size, resolution and margin", "why_tests_cant": "continuum of sizes", "anchors": ["astropysics/plotting.py:subplots_adjust_points"]}
{"id": "C208", "title": "The virial overdensity", "statement": "deltavir fails exactly for curved universes with a cosmological constant. For flat universes of matter and a cosmological constant, and for open ones of matter alone, it is the fit of Bryan and Norman in the matter density at that redshift; it is above 56, never above 18 pi^2, does not fall with redshift and tends to 18 pi^2; with matter alone in a flat universe it is 18 pi^2 at every redshift.", "quantifier": "every redshift and cosmology of the kinds named", "why_tests_cant": "a continuum of redshifts and cosmologies", "anchors": ["astropysics/constants.py:FRWCosmology.deltavir", "astropysics/constants.py:FRWCosmology.computeOmegaMz"]}
{"id": "C209", "title": "Animations reach their key frames", "statement": "In ax3d_animate, after the frames of the first k segments the view is exactly the k-th key frame (relative ones added up), with equal steps inside a segment and one step per frame; a segment of no frames always fails; the numbers of key frames and segments must agree or differ by one, the first being then the initial view. File number i holds the view after i+1 steps, every frame has its own file and no other file changes. The initial view is in no file if there is a frame, and old frames are deleted even if the call then fails.", "quantifier": "every list of key frames, frame counts, initial view, file name and directory", "why_tests_cant": "unbounded lists and directories", "anchors": ["astropysics/plotting.py:ax3d_animate"]}
{"id": "C210", "title": "Movies of animations", "statement": "If the files fitting the name are exactly the frames of an animation, listed in any order, make_movie calls ffmpeg with a pattern that gives every frame its name, for every number of frames. ffmpeg runs even with run=False, options for it are a NameError, and names with several frame numbers are a ValueError.", "quantifier": "every number of frames, file name and order of listing", "why_tests_cant": "unbounded numbers and permutations", "anchors": ["astropysics/plotting.py:make_movie"]}
{"id": "C211", "title": "Creating, reloading and resetting a ConfigObj", "statement": "Keywords that differ from their default win over the options dictionary, which wins over the defaults; an unknown option is a TypeError. Whatever was changed in the object, reload gives exactly the object that would now be created from its file with its present options and original configspec; it forgets all contents, also if the file is missing and that is an error, and can then be tried again; twice is once. Without a file name it is a ReloadError that changes nothing. reset leaves an empty object with default options and no file. A keyword cannot set an option back to its default against the dictionary; an indentation taken from the file stays.", "quantifier": "every object, options, dictionary, file system and configspec", "why_tests_cant": "unbounded histories before the reload", "anchors": ["astropysics/external/configobj.py:ConfigObj.__init__", "astropysics/external/configobj.py:ConfigObj.reload", "astropysics/external/configobj.py:ConfigObj.reset"]}
{"id": "C212", "title": "The IPython setup dialogue", "statement": "On every list of lines typed: with a default a blank line takes it and any other line is the answer as typed; without one the first line that is not blank is the answer. The default toolkit is that of the Mac, or of the first of wx, PyQt4, gtk and Tk that can be imported. An existing file is overwritten only after a blank line or y, kept after n, and the question is repeated after anything else. The file written is the template with each placeholder replaced by its answer (answers without braces). In every other case - no IPython, one before 0.10, input that ends early, a no - the file is unchanged.", "quantifier": "every input, machine, template and existing file", "why_tests_cant": "unbounded dialogues", "anchors": ["astropysics/config.py:run_ipython_setup", "astropysics/data/ipython_config_astpys.py"]}
{"id": "C213", "title": "Marking the objects of a finished mask", "statement": "doneToG0 reads exactly the data lines after the first 'Selected Objects' up to the next 'Selected Guide' whose priority and selection are not negative, in order. If all numbers are within the catalogue exactly these objects are put into group 0 and every other keeps its group (group 1 if there were none); if one is beyond it, or on request, exactly the objects found by position are. Nothing selected is a ValueError that changes nothing; number 0 marks the last object.", "quantifier": "every file, catalogue size and groups", "why_tests_cant": "unbounded files and catalogues", "anchors": ["astropysics/gui/spectarget.py:doneToG0"]}
{"id": "C214", "title": "Error bars on logarithmic axes", "statement": "In logerrplot every point is treated on its own: a positive point whose bar stays above zero is unchanged; a positive point whose bar reaches zero keeps its place and upper error and becomes a limit with a bar of boundscale times its value; any other point is put at its lower error as a limit. With boundscale below 1 every point and every bar drawn is positive as soon as the points that are not positive have positive errors. Without errors the values that are not positive are put at boundscale times the smallest positive one; it fails exactly if there is none. With logaxes='x' the errors of the two axes are exchanged.", "quantifier": "every list of points, errors and flags", "why_tests_cant": "continuum of values, unbounded lists", "anchors": ["astropysics/plotting.py:logerrplot"]}
{"id": "C215", "title": "The context of a plot", "statement": "Whatever the body does, and whether it raises or not, mpl_context restores the interactive flag; an exception is passed on and nothing is saved or shown; else the figure is saved exactly if a name is given and shown exactly if asked.", "quantifier": "every body and every exit", "why_tests_cant": "exits at any point", "anchors": ["astropysics/plotting.py:mpl_context"]}
{"id": "C216", "title": "Ticks of a mapped axis", "statement": "For a linear mapped axis there are exactly majorticks major ticks, equally spaced from end to end, and exactly minorticks minor ones between every two neighbours, equally spaced, and no others.", "quantifier": "every limits and numbers of ticks", "why_tests_cant": "unbounded numbers of ticks", "anchors": ["astropysics/plotting.py:add_mapped_axis"]}
{"id": "C217", "title": "The colour of a spectrum", "statement": "rgbEyeColor gives, in any order of the bands, red first; with positive fluxes all three are positive, at most 1, and one is 1; the colour does not depend on the brightness; after the calibration the black body used for it is white; a group without three bands is a ValueError.", "quantifier": "every three bands, fluxes and sensitivities", "why_tests_cant": "continuum of spectra", "anchors": ["astropysics/spec.py:Spectrum.rgbEyeColor", "astropysics/phot.py:__generateRGBSensTuple"]}
{"id": "C218", "title": "Density scatter plots", "statement": "In scatter_density every data point is counted in exactly one cell of the grid, and it gets its own marker exactly when fewer than the threshold are counted there and it lies on no bin edge; so the leftmost, rightmost, lowest and highest points never get one. Points outside lims are neither counted nor drawn, those on the limits are. With points set, every point is drawn as soon as one qualifies. By default at most a sixth of the cells are below the threshold (the documentation says half), and once more than a sixth are empty nothing is drawn.", "quantifier": "every list of points, numbers of bins, thresholds and limits", "why_tests_cant": "continuum of points, unbounded lists and grids", "anchors": ["astropysics/plotting.py:scatter_density"]}
{"id": "C219", "title": "Rotating animations", "statement": "However many steps of mlab_animate_rotzoom's animation have run, the scene is the initial one after as many moves and exactly the frames so far are saved, each showing the scene before its move (so the scene after the last one is never saved); at the end view and roll are the initial ones. Relative moves turn by azimuth, elevation and roll and then zoom; absolute ones leave every quantity at the last value given. Without a file name nothing is saved.", "quantifier": "every scene, list of moves and number of steps", "why_tests_cant": "unbounded histories, stopped anywhere", "anchors": ["astropysics/plotting.py:mlab_animate_rotzoom"]}
{"id": "C220", "title": "Arguments and frame names of rotating animations", "statement": "The arguments are accepted exactly if at least one is a sequence and all sequences are equally long (else ValueError), and frame i gets the i-th value of each sequence and the single values. The frames' names are all different and equally long, with no more zeros than needed; naming fails only for empty sequences. The delay is within half a millisecond of a second divided by the rate.", "quantifier": "every four arguments, file name, number of frames and rate", "why_tests_cant": "unbounded sequences and numbers", "anchors": ["astropysics/plotting.py:mlab_animate_rotzoom"]}
{"id": "C221", "title": "The display range of an image", "statement": "In plotImage a code ignoring low and up values gives a range between two of the values with at most low values below it and more than low not above its lower end, but at most up-1 values above its upper end: one fewer than asked for. A code ignoring everything shows everything. p ignores half of the remaining percentage at each end to within half a value, n the given numbers, i exactly the listed values; s is centred on the median. Inverting gives every pixel the complementary shade. Global codes answer as they did first until the cache is cleared.", "quantifier": "every list of pixel values, code and history of requests", "why_tests_cant": "continuum of values, unbounded images", "anchors": ["astropysics/ccd.py:CCDImage.plotImage"]}
{"id": "C222", "title": "Which PyFITS is fetched", "statement": "On every page the PyFITS installer takes the address of the last link before the last announcement of a stable release inside a table row, even if that link belongs to an earlier row; without an announcement there is no address.", "quantifier": "every stream of tags and texts", "why_tests_cant": "unbounded pages", "anchors": ["astropysics/config.py:_PyfitsInstaller"]}
{"id": "C223", "title": "The version string", "statement": "The revision in a development version is the number of commits, or the name of the newest commit; where git cannot be run or fails it is just dev, and asking for it in a release is a ValueError. Different versions never have the same string, and no development string is that of a release.", "quantifier": "every history, version numbers and outcome of git", "why_tests_cant": "unbounded histories and numbers", "anchors": ["astropysics/version.py:_get_git_devstr", "astropysics/version.py:version"]}
{"id": "C224", "title": "Putting a catalog in the place of a node", "statement": "insertInto raises AttributeError and changes nothing whenever the node has no parent or its parent is a Catalog; below a field node it raises ValueError, unless a field has the node for its value: then the catalog is put among the parent's children at the number of that field, the node becomes its last child and the others keep their order; if the catalog is above the parent the call stops half way with CycleError, the node moved already.", "quantifier": "every reachable forest of nodes", "why_tests_cant": "unbounded histories of tree operations", "anchors": ["astropysics/objcat.py:Catalog.insertInto"]}
{"id": "C225", "title": "Rise and set over a year", "statement": "In yearPlot the transit of every day is moved by a day at most, into the day that ends at the end of the axis. The error bar reaches up from the transit as far as the rise is before it: the bars are upside down (24 hours less if the transit was moved and the rise was the day before, which cannot be in local time). It reaches down as far as the set is after it, except when the transit was moved and the set is on the same day, where it is 24 hours too long. One bar a day in order; if the object does not rise or set on some day the plot is a TypeError.", "quantifier": "every rise, set and transit time, every axis, every list of days", "why_tests_cant": "a continuum of times, unbounded lists", "anchors": ["astropysics/obstools.py:Site.yearPlot"]}
{"id": "C226", "title": "The limits of an SED plot", "statement": "plotSED with both spectra and photometry always raises UnboundLocalError, with neither TypeError. With only one of them each axis runs from the least value less a tenth of the range to the greatest plus a tenth.", "quantifier": "every list of spectra and photometric measurements", "why_tests_cant": "unbounded lists, continuum of values", "anchors": ["astropysics/objcat.py:SEDField.plotSED"]}
{"id": "C227", "title": "Continuum fits over a session", "statement": "A fitContinuum call that is not interactive sets the continuum to the fit of the model it starts from (given, held, or the default), or to that fit's values, and succeeds exactly if there is such a model; otherwise the continuum is unchanged. A cancelled window changes nothing, an accepted one sets what the user made of the model shown. Once the continuum is evaluated, every call without a model raises AttributeError and leaves it. A call naming a model makes all earlier calls irrelevant; calls without a model fit the held one again and again.", "quantifier": "every history of calls, every models, fits and user actions", "why_tests_cant": "unbounded histories", "anchors": ["astropysics/spec.py:Spectrum.fitContinuum"]}
{"id": "C228", "title": "Plotting a spectrum", "statement": "Spectrum.plot draws exactly the pixels strictly inside the range, whichever way round it is given, each with its own flux, at the observed or rest-frame x; fewer than four pixels become the edges of their bins. Errors below twice the greatest flux are drawn times one common factor, the others as markers at one level; with a number k the factor makes their mean k times the mean flux. ploterrs=True does the same with k = 1 rather than showing the errors. A numbered continuum has that multiple of the mean drawn flux as mean; the continuum is always drawn at the observed x and over the whole spectrum.", "quantifier": "every spectrum, range, error and continuum argument", "why_tests_cant": "unbounded spectra, continuum of values", "anchors": ["astropysics/spec.py:Spectrum.plot"]}
{"id": "C229", "title": "What Spylot draws", "statement": "Every selected spectral line is drawn as exactly one vertical piece at its observed place, in order, whatever the selection; the pieces joining them run outside the shown heights, so nothing else is seen. A spectrum of three or more pixels is drawn as a histogram with two points for each pixel, at the edges half way to its neighbours and at its own flux; for increasing x every pixel lies strictly between its edges.", "quantifier": "every selection of lines, redshift and spectrum", "why_tests_cant": "unbounded selections and spectra", "anchors": ["astropysics/gui/spylot.py:Spylot._majorlines_changed", "astropysics/gui/spylot.py:Spylot._minorlines_changed", "astropysics/gui/spylot.py:_hist_sample_x", "astropysics/gui/spylot.py:_hist_sample_y"]}
{"id": "C230", "title": "Labels and tools in Spylot", "statement": "After any history of selecting lines, changing the redshift, switching labels and selection modes the plot holds its own tools and overlays and exactly those of the present mode and labels, each once. There is a tool, and dragging is with the right button, exactly in the selecting modes. With labels on and a line selected the labels are exactly those of the selected lines at their observed places; with labels off none is visible. But deselecting all lines leaves the labels, however the redshift is then changed.", "quantifier": "every history of user actions", "why_tests_cant": "unbounded histories", "anchors": ["astropysics/gui/spylot.py:Spylot._rebuild_labels", "astropysics/gui/spylot.py:Spylot._showlabels_changed", "astropysics/gui/spylot.py:Spylot._featureselmode_changed", "astropysics/gui/spylot.py:Spylot._maintool_changed"]}
{"id": "C231", "title": "Selections with the mouse in Spylot", "statement": "However the mouse is moved, a selected range is that between the press and the last position inside the plot, its lower end first. In the click modes every release of the button after the first press selects a point. A base line drawn from left to right becomes the continuum as drawn, one drawn from right to left becomes its mirror image.", "quantifier": "every sequence of mouse events, every line drawn", "why_tests_cant": "unbounded histories", "anchors": ["astropysics/gui/spylot.py:RangeSelectionBugfix", "astropysics/gui/spylot.py:FeatureClickTool", "astropysics/gui/spylot.py:Spylot._add_feature_base"]}
{"id": "C232", "title": "Plotting a group of bands", "statement": "plot_band_group draws every name once in the order of the centres, independent of the order of the dictionary if the centres differ; the colours of two or more bands are valid, all different, from pure blue to pure red, and the other way round by frequency; UBVRI and ugriz have their own letters. A single band's colour is 0/0; with duplicate names only the last band of a name is drawn and the red end is left out. After the plot all bands have their old units, whichever bands cannot change theirs.", "quantifier": "every list of bands, names, centres and units", "why_tests_cant": "unbounded lists, continuum of centres", "anchors": ["astropysics/phot.py:plot_band_group"]}
{"id": "C233", "title": "Reddening from the ratio of two lines", "statement": "extinction_from_flux_ratio gives the one E(B-V) with which correcting the two lines gives the expected ratio, and an E(B-V) off by d gives it to within a factor of 10^(0.4 Rv |k2-k1| d); for every Balmer decrement and the default Rv it is positive exactly if the observed ratio is greater than the expected one. With a band or wavelength the result is the extinction there. Other names are KeyErrors, wavelengths outside the law ValueErrors; if the law is the same at both lines every E(B-V) fits equally.", "quantifier": "every list of observed ratios, expected ratio, wavelengths, Rv", "why_tests_cant": "a continuum of ratios and wavelengths, unbounded lists", "anchors": ["astropysics/obstools.py:extinction_from_flux_ratio"]}
{"id": "C234", "title": "The full spectrum of an SED", "statement": "getFullSED gives exactly the pixels of the spectra and one point for each band of each observation, by increasing x; errors lose their sign. A point has the flux of the observation but is placed at the centre of the band divided by its width, in any unit: left of the centre for every band wider than 1 Angstrom. If some band has several values it is a ValueError. A single ordered spectrum is given back.", "quantifier": "every list of spectra and observations, every order of equal x", "why_tests_cant": "unbounded lists, continuum of values", "anchors": ["astropysics/objcat.py:SEDField.getFullSED"]}
{"id": "C235", "title": "Which points a scatter plot with logarithmic axes shows", "statement": "scatter4d draws each point once, and exactly if its scaled x and y are positive where their axes are logarithmic, and its scaled colour and size are greater than ONE where these are (values between 0 and 1 are lost); with its own scaled values or their logarithms. Constants stand for all points. The length check refuses only if all neighbouring pairs of lengths differ: colours that are too short are an IndexError.", "quantifier": "every data, scaling and choice of logarithms", "why_tests_cant": "unbounded data, continuum of values", "anchors": ["astropysics/plotting.py:scatter4d"]}
{"id": "C236", "title": "Camera and stereo mode over a history", "statement": "A vector becomes the focal point; a number puts it at that distance in its direction. After any number of calls with nonzero numbers it is on the line through the origin and the first point at the last distance, on the side given by all signs; after a 0 the next number makes it not a number, for good. A sequence of one counts as a number, any other is a ValueError without effect; a position not of three is one after the focal point has moved. Stereo is what the last True or False said: None never toggles.", "quantifier": "every history of calls", "why_tests_cant": "unbounded histories, continuum of values", "anchors": ["astropysics/plotting.py:mlab_camera", "astropysics/plotting.py:mlab_anaglyph", "astropysics/plotting.py:mlab_checkerboard"]}
{"id": "C237", "title": "Tables and plots of a night", "statement": "Every call of nightTable raises ImportError and every call of nightPlot fails, with UnboundLocalError if colours are given or there is no object, ValueError for an unknown kind of plot, else ImportError. Nothing is drawn, but the figure may have been cleared, and the kind 'altam' leaves its right margin changed.", "quantifier": "every object, date, kind of plot and arguments", "why_tests_cant": "all inputs", "anchors": ["astropysics/obstools.py:Site.nightTable", "astropysics/obstools.py:Site.nightPlot"]}
{"id": "C238", "title": "Line lists in Spylot", "statement": "Selecting candidate lines by their texts selects these in order if the texts are different; an unknown text is a ValueError, and a candidate whose text an earlier one has can never be selected. Assigning the selected lines never changes the selection (unknown ones are a ValueError). By default every line of the galaxy list is either major or minor, but every line of the stellar list is minor, the major ones too. The names to choose from are those of the major lines, a rule as long as the longest name, those of the minor lines; a ValueError without any line.", "quantifier": "every list of candidates, names and items", "why_tests_cant": "unbounded lists", "anchors": ["astropysics/gui/spylot.py:LineListEditor", "astropysics/gui/spylot.py:_get_default_lines", "astropysics/gui/spylot.py:Spylot._get_linenamelist"]}
{"id": "C239", "title": "Feature lists in Spylot", "statement": "After any history of adding, selecting, deleting, clearing and editing exactly the extents of the features are highlighted and the marked one is the selected one; recalculating leaves the old extent highlighted until the list changes. Deleting removes exactly the selected feature and keeps the number; after deleting the last one the enabled button is an IndexError without effect. Clearing leaves nothing. An edited extent has its lower end first.", "quantifier": "every history of user actions", "why_tests_cant": "unbounded histories", "anchors": ["astropysics/gui/spylot.py:Spylot._update_featurelist", "astropysics/gui/spylot.py:Spylot._deletefeature_fired", "astropysics/gui/spylot.py:Spylot._clearfeatures_fired", "astropysics/gui/spylot.py:FeaturesAdapter"]}
{"id": "C240", "title": "The distance and the modulus in the target window stay together only if the conversions are inverse", "statement": "In the SpecTarget window, entering a distance or a distance modulus, or giving it another CMDAnalyzer, keeps distance, modulus and the analyzer's modulus in agreement after any history when the two conversions are inverse to each other; in general one change made while the window agrees with the analyzer is taken over by the analyzer, but if the derived value is already shown the next change is shown and not passed on, and entering a distance, its plain modulus and then another modulus leaves the analyzer with the plain one; opening the window replaces the analyzer's modulus by the converted distance.", "quantifier": "all histories of entered distances, moduli and replaced analyzers; all conversion functions", "why_tests_cant": "histories and real-valued conversions are unbounded; which change is lost depends on the whole history", "anchors": ["/repo/astropysics/gui/spectarget.py:SpecTarget._distance_changed", "/repo/astropysics/gui/spectarget.py:SpecTarget._distmod_changed", "/repo/astropysics/gui/spectarget.py:SpecTarget._cmda_late_changed"]}
{"id": "C241", "title": "A wrong priority band is put back, unless there was none", "statement": "Entering a band the analyzer has sets it; entering one it has not, or none, puts the previous band back and recomputes the priorities once, so that after a valid band there is always a valid band; but if the previous value was not valid either (as when the window opens with a colour on the y axis), the change handler calls itself without end.", "quantifier": "all lists of valid bands, all previous and entered values, all histories, all recursion limits", "why_tests_cant": "no finite recursion depth or history covers the endless case", "anchors": ["/repo/astropysics/gui/spectarget.py:SpecTarget._priband_changed"]}
{"id": "C242", "title": "The marks of guide and alignment stars follow the settings", "statement": "In the SpecTarget window, while a guide star band is set, priorities are at most one and the ignore-priority is never exactly one, after any history of changed cuts, bands, axes, priorities, positions and analyzers both plots mark exactly the stars brighter than the guide star cut (guide) and the other stars brighter than the alignment cut (alignment), all below the ignore-priority, at their places and current axis values; no star is both, and there are no alignment stars unless their cut is the fainter.", "quantifier": "all lists of stars, all cuts, all histories of changes", "why_tests_cant": "histories and catalogues are unbounded and only some changes redraw all the marks", "anchors": ["/repo/astropysics/gui/spectarget.py:SpecTarget._updategastars_fired", "/repo/astropysics/gui/spectarget.py:SpecTarget._guidealignmasks", "/repo/astropysics/gui/spectarget.py:SpecTarget._updatepri_fired", "/repo/astropysics/gui/spectarget.py:SpecTarget._updatedata_fired"]}
{"id": "C243", "title": "What the plots of the target window keep from before", "statement": "Clearing the guide star band takes the marks off the map but leaves those of the colour-magnitude plot, which stay where they were however the axes change; at an ignore-priority of one or more, new priorities do not reach the marks; a new analyzer brings its axis values and priorities, but the map shows the old places.", "quantifier": "all states of the window, all sequences of axis changes, all new analyzers and priorities", "why_tests_cant": "needs all states and histories", "anchors": ["/repo/astropysics/gui/spectarget.py:SpecTarget._updategastars_fired", "/repo/astropysics/gui/spectarget.py:SpecTarget._cmda_late_changed", "/repo/astropysics/gui/spectarget.py:SpecTarget._updatelocs_fired"]}
{"id": "C244", "title": "The offset settings window", "statement": "The window of offset settings opens exactly if offset bands have been chosen (with the default, all bands, it is a TypeError), showing the bands, one over the weights, and one over the location weight (0 for 0); pressing OK without changes leaves bands and weights, and the offsets that will be computed are the same; OK after changes takes bands and reciprocals over and drops the cached offsets; with a wrong number of scales it fails after the bands are taken and the weights forgotten, with an unacceptable band it changes nothing; cancelling changes nothing.", "quantifier": "all reachable analyzers, all contents of the window", "why_tests_cant": "analyzers, bands and weights are unbounded; the round trip must hold for every one", "anchors": ["/repo/astropysics/gui/spectarget.py:OffsetDialog", "/repo/astropysics/gui/spectarget.py:ODHandler"]}
{"id": "C245", "title": "The separation in space of two positions on the sky is a distance", "statement": "sky_sep_to_3d_sep returns the distance between the two points in space that lie in the two directions at the two distances: symmetric, between the difference and the sum of the distances (the first for equal, the second for opposite directions), zero exactly for equal points, and obeying the triangle inequality; an argument that is no position makes it fail.", "quantifier": "all pairs and triples of coordinates, all distances that are not negative, all conversions", "why_tests_cant": "real-valued directions and distances; the inequalities must hold for all of them", "anchors": ["/repo/astropysics/coords/funcs.py:sky_sep_to_3d_sep"]}
{"id": "C246", "title": "Fluxes and magnitudes of a spectrum in named bands", "statement": "Spectrum.computeFlux and computeMag with a text of band names return the flux or magnitude in each band it stands for, in order, as a number exactly if it is one band; they fail with the error of the first band that fails or of the registry; a band object or a sequence, though documented, is always a NameError.", "quantifier": "all texts, registries, bands, spectra and keywords", "why_tests_cant": "the list of bands is unbounded and every kind of failure must be covered", "anchors": ["/repo/astropysics/spec.py:Spectrum.computeFlux", "/repo/astropysics/spec.py:Spectrum.computeMag"]}
{"id": "C247", "title": "Bands from files", "statement": "A FileBand without a type reads every file as text, whatever its extension (the extension keeps its dot and is compared without one); a FITS file is read exactly if the type says 'fits', another type than 'txt' and 'fits' is a ValueError; and a text file makes a band exactly if it has at least two lines and all have two numbers, the first being the positions and the second the response.", "quantifier": "all file names, types and contents", "why_tests_cant": "file names and tables are unbounded", "anchors": ["/repo/astropysics/phot.py:FileBand"]}
{"id": "C248", "title": "Signatures in documentation", "statement": "For a function with defaults and a docstring, and without a rest parameter, add_docs_and_sig documents it by its signature as Python writes it, the defaults on the last arguments in order, a new line and its docstring; it fails with a TypeError exactly without defaults or without docstring; with a rest parameter and arguments the signature is in the wrong order.", "quantifier": "all functions: any numbers of arguments and defaults, and all lists of functions", "why_tests_cant": "the loop over the reversed defaults must be right for every number of arguments and defaults", "anchors": ["/repo/astropysics/utils/gen.py:add_docs_and_sig"]}
{"id": "C249", "title": "The to-do list of a module in the documentation", "statement": "The todomodule directive gives, for a module that is found, a target and a to-do node for each line that begins with #TODO, in order, with the text after the word (and colon) without white space around it; targets of a page are numbered without repetition; a module that is not found is one warning; where `_` is no builtin, a module with such a line is a NameError.", "quantifier": "all modules, files, lines, options and earlier numbers", "why_tests_cant": "files are unbounded and the numbers must be distinct for every sequence of directives", "anchors": ["/repo/astropysics/sphinxext/todomod.py:TodoModule.run"]}
