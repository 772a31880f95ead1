# Formal model of eteq/astropysics in Lean 4

## Approach

The pinned code in `/repo` is Python 2.  We model its pure and state-machine core, function by
function, as total computable Lean functions; exceptions are values; in-place mutation is a returned
new state; a Python `while` loop is structural recursion or recursion on fuel (and then termination is
a theorem, or its absence a finding).  Every definition cites the file and lines it models.

For each area `X` there are up to three modules under `lean/Verif/`:

* `X.lean` – the model (cited definitions, no theorems worth quoting),
* `XLemmas.lean` – helper lemmas (not part of the claims),
* `XProps.lean` – the independent specification and the property theorems, each with an `example`
  exhibiting a non-trivial instance of its hypotheses.

Where the code violates the stated property, the negation is proved with a concrete witness
(`…_fails`/`…_counterexample` theorems) and the part that holds is proved with the suffix `_partial`.

## Trusted base

* Lean 4.33.0's kernel and the three standard axioms `propext`, `Classical.choice`, `Quot.sound`
  (no axioms of our own, no compiled-code decision procedures).
* The reading of the Python source that the model embodies (nothing is executed here).
* Semantics assumed for Python/numpy primitives: `list`, `dict`, `deque`, integer and float arithmetic.
  Floating point is idealised as exact `Int`, `Rat` or real arithmetic; each model says which.

## Properties: what is modelled and how it will be proved

Where the documented behaviour fails for some inputs, the property is stated exactly: the statement in
properties.jsonl names the inputs on which the code does what its documentation says, and the theorem is an
equivalence (`..._iff`, `..._exact`) over all inputs or calls.  These are in the modules named `*Exact`, or beside
the theorems they complete.  A claim is "partial" only where a part of its statement is neither proved nor
characterised, or is refuted by a counterexample without an exact condition.

| Id | Model | Proof |
|----|-------|-------|
| C01 | `Pipeline` as elements + retry counters + queues, `step` per API call | weighted-queue invariant (queued data pushed through remaining stages) by induction on the op list |
| C02 | same, with Python index normalisation for insert/pop | length invariant by induction on the op list |
| C03 | same | per-element queue association for every integer stage number (`PipelineExact`) |
| C04 | same, deque `extend`+`rotate` modelled literally | list algebra |
| C05 | same, element outcome `raised` | case analysis of `processStage` |
| C06 | messages with object/class targets | induction over remaining stages |
| C07 | `processSingle` with retrying elements | induction on stages and attempts; exact result with data waiting anywhere by `pushThrough`, induction over the stages |
| C08 | attempt counter in the trace | invariant on the inner loop |
| C09 | `extract` | corollary of the C01 invariant plus emptiness of earlier stages |
| C10 | accumulator as an element wrapper | induction on the data stream |
| C11, C12 | heap of nodes `Nat -> (parent, children)` with the exact update order of `_setParent` | forest invariant by induction on histories |
| C13–C16 | rose trees and `visit` with fuel-free structural recursion; queue-based level order | structural induction, permutation and depth-order lemmas |
| C17, C18 | `Field._vals` list with all mutators | invariant by induction on histories |
| C19, C20 | derived values graph with valid flags and the invalidation stack | reachability invariant |
| C21 | weak dictionary of sources with collection events | invariant by induction |
| C22 | two linked dictionaries as in the code | invariant with an exact condition per call (`SymMapExact`); counterexamples |
| C23 | type specifications as an inductive type | induction |
| C24–C27 | angles as exact rationals/reals | arithmetic |
| C28, C29 | registry as association list with cache and invalidation; path search as BFS | invariant; BFS shortest-path correctness |
| C30–C32 | Meeus integer algorithm (exact integer arithmetic with truncation) | closed-form day count, induction on dates |
| C33 | linear maps over a field | field algebra |
| C34 | the table and lookup | case analysis/monotonicity |
| C35 | column list with overlap check | invariant by induction |
| C36 | list slicing | list algebra, counterexample |
| C37 | cache state machine | invariant by induction |
| C38 | `text_to_nodes` with its regular expressions as explicit matchers; printed nodes | induction on the text length over the texts without the listed shapes: the first stage leaves strings between commands, the last stage pairs every `{` before a command with the brace that closes it; a counterexample for every shape |
| C39, C61 | heap of TeX nodes with parents and children | structural induction on the document tree |
| C40, C41, C43 | lists of rationals | induction |
| C42 | 3x3 real matrices; Rodrigues' formula as the specification | trigonometric identities; injectivity of the formula modulo full turns |
| C44 | `processSingle` with its limit and cleanup branches | case analysis of the inner loop; counterexamples for saving elements; any stage and limit for saving elements, by the invariant of C07 up to the failing stage |
| C45–C47 | same forest as C11: `mergeNode`, `removeChild`, `idstr` | from the forest invariant; counterexamples |
| C48, C49 | `Field` with type check outcomes and a log of notifications | invariant by induction; per-call case analysis |
| C50 | angle objects without range | field algebra, counterexample |
| C51–C53 | positions as two angle objects; `atan2` = complex argument; directions in Euclidean 3-space | trigonometry, Mathlib's unoriented angle |
| C54 | flat index arithmetic of repeat/reshape/transpose | induction on the shape |
| C55, C56 | real matrices, square roots | trigonometry, counterexamples |
| C57 | additions of day fractions with a rounding parameter (exact, or IEEE doubles on a 2^-31 grid) | floor arithmetic over ℚ |
| C58, C59 | combining loop over a list of path legs; decorator application | induction on the path / stack, counterexamples |
| C60 | pickle files as item lists with torn tails | induction on the write history |
| C63, C64 | the C01 pipeline model: `processToStage` with nonnegative stage, `clear` | exact effect of draining one stage, induction over stages |
| C65 | the C17 field model: derived values and their owner | case analysis of the converting calls; invariant over histories |
| C66 | the C19 graph with the failure mode of `DerivedValue` | induction on the recursion depth of reads |
| C67 | unit strings, the nine conversions and `Spectrum._applyUnits` over an ordered field with arbitrary positive constants | invariance of photon energy and x*flux per sample, lifted to arrays, induction over histories |
| C68 | `getUnitFlux`, `nflux` with their `finally` clauses | C67 with case analysis of the failure points; counterexamples |
| C69, C70 | one-dimensional `Spectrum` with continuum state; all public mutators as operations | invariants over histories; sort of the constructor as merge sort |
| C71 | `FunctionSpectrum` with its transformations as late-bound methods | algebra of the inverse conversion; counterexample after two changes |
| C72 | `load_line_list` on a sequence: duplicate scan, deletion by decreasing index, sort | deletion equals filtering by index; grouping invariant of the scan; counterexample with a tolerance; groups within a tolerance by numbering them and reducing to exact matches |
| C73 | `estimate_background` with `np.median` as middle of the sorted data and `np.mean` | order statistics of the sorted list; affine maps commute with sorting |
| C74 | the coordinate conversions on reals with `arctan2` as the argument of a complex number | `Complex.norm_mul_cos_arg` etc.; exact set of failure for degrees in cylindrical coordinates |
| C75 | `match_coords` as a Boolean matrix over lists of points, every mode | row and column sums as counts; lexicographic order of `np.where`; transposition proved |
| C76 | `match_nearest_coords` over scipy's tree given by a specification (k different indices, sorted, the rest no closer) | counting argument for the n-th nearest; brute force shows the specification can be met |
| C77 | Earth rotation angle, sidereal time with an arbitrary nutation | remainder arithmetic; intermediate value theorem gives the date of the jump |
| C78 | the two latitude conversions | `arctan`, `tan` inverse on the open interval, monotonicity |
| C79 | the two size conversions | reduction to the tangent law |
| C80 | `cosmo_z_to_dist`, `cosmo_dist_to_z` with interval integrals and complex square roots | positivity of the integrand; `sin x < x < sinh x`; closed form for the counterexample |
| C81 | `FRWCosmology` densities, flux density conversions | algebra |
| C82 | module namespace, objects, current cosmology, registry as a state machine | invariant over all histories; counterexamples for unreadable and clashing parameters |
| C83 | registry keys as character lists (`lower`, `replace`) | removal of a word that does not occur is the identity |
| C84 | Pogson conversions over the reals; the system choice as a state machine | exponential/logarithm identities, derivative; induction on the history |
| C85 | `distance_modulus` with `cosmo_z_to_dist` as a parameter, all branches | logarithm identities; the default's failure in the Einstein-de Sitter cosmology of CosmoDist |
| C86 | luminosity, color and surface brightness functions over the reals, dictionaries as association lists | as C84; induction on the dictionary |
| C87 | `np.interp` on association lists; the g-r polynomial over the complex numbers, its roots as any list whose multiset is that of the polynomial | interpolation in the reversed table inverts segment by segment; the cubic decreases strictly on the range, so the root in it is unique and simple |
| C88 | dictionaries as partial functions, with the stand-in for missing bands as a parameter | case analysis on the bands present; linear arithmetic |
| C89 | ArrayBand as sample lists, `argsort` as any sort that depends on the positions, `simps` as any homogeneous functional, `np.interp` over the reals | extremal elements of lists; homogeneity of every step |
| C90 | PhotObservation as a state machine with four assignments | invariant over histories; logarithm identities |
| C91 | median as middle of the sorted list; MAD and biweight midvariance over an ordered field | order statistics, counting arguments for the breakdown point; affine maps |
| C92 | `scoreatpercentile` as linear interpolation between order statistics of the sorted list | counting; affine maps and reversal of the sorted list |
| C93 | `Pca` on real matrices with the eigen decomposition as a parameter | matrix algebra, traces; counterexample characterisations |
| C94 | arrays as functions on multi-indices of any dimension; axes as lists of lists | finite sums, `Finset.prod_univ_sum` for separability; counterexamples |
| C95 | ten half-open bins over the range, the assignment loop as a fold | every value in exactly one bin; sums regrouped by bin |
| C96 | dicts as association lists, nested group lookups with Python's recursion limit, all branches of `getObjects` | invariant over histories: group members are registered; lookups by cases |
| C97 | the regular expressions as functions on characters | substitution as a map over lines; a nonblank first character makes the second call the identity |
| C98 | extinction objects as (law, A0), band lookups as a partial function | real identities (logarithms and powers of ten) |
| C99 | E(B-V) property, Balmer calibration, CCM and FM laws piecewise as in the code | field identities; numerals decided by norm_num |
| C100 | equatorialToHorizontal over the reals, arctan2 as Complex.arg; specification: unit vectors and the change of axes | trigonometric identities; derivatives of arcsin and of the argument for the error coefficients |
| C101 | riseSetTransit (hours and datetimes), nextRiseSetTransit, onSky with the day-by-day windows; specification: the altitude of C100 under a uniform sidereal clock | monotonicity of sin and arccos; floor arithmetic; case analysis on the windows |
| C102 | localSiderialTime argument and result forms, localTime | floor arithmetic modulo 24 |
| C103 | the refraction step of apparentCoordinates; specification: Meeus' formula in degrees | sign of tan, numeric bounds on pi |
| C104 | ArrayImage/FitsImage as stored array + active array (view or own) + range + scaling + statistics cache; specification: region/selected/place of a range | invariant over all histories (Reach), pixelwise case analysis |
| C105 | the six scalings as real functions with errors | inverse functions of Mathlib, monotonicity of log |
| C106 | draws as (mean, variance) pairs | algebra |
| C107 | subtractFromImage step by step | list sums |
| C108 | a combined pixel from its stack; trimming ranges; flattening | Cauchy-Schwarz for lists, integer arithmetic |
| C109 | an object as state (date, hooked values, range, warnings) with generic hook and coordinate functions; the shared table | induction over dates and histories |
| C110 | the attributes of a ProperMotionObject over ℝ | history invariant, bounds for π |
| C111 | elements, Kepler's equation, anomalies, rotation to space, phase over ℝ; fsolve as a parameter | intermediate values, Lipschitz bound of sine, complex argument, Cauchy-Schwarz |
| C112 | the series of the Earth over ℝ for arbitrary tables | HasDerivAt of each term, sums by induction |
| C113 | profile models with analytic integrals: `f`, `integrateSpherical`, `integrateCircular`, FWHM properties, conversions, incl. the projected NFW model | calculus (Mathlib); the projected NFW light by continuity at the scale radius and at the centre, the derivative elsewhere, and the fundamental theorem on the two sides |
| C114 | NFW halo with parameters and the saved concentration; the numerical inverse is a parameter with a specification | monotonicity of mean density, unique root by the intermediate value theorem; unique maximum of the velocity with logarithm bounds; algebra of the power laws |
| C115 | Schechter functions with scipy's incomplete gamma functions as integrals; Sersic class with its cache as a state machine | change of variables, FTC, invariant of the cache over all histories, uniqueness of the coefficient |
| C116 | the blackbody object, its units and setters | integral of x³/(eˣ-1) by a series and ζ(4); unique maximum of yⁿ/(eʸ-1) with logarithm bounds; algebra |
| C117 | `_dataAndBandsToDicts` over any commutative group, names already split | invariants of the two passes over the list |
| C118 | the whole analyzer as a state machine over ℝ, NaN rows as missing | invariant of reachable states; minima of lists; the specification is written per object and fiducial point |
| C119 | the cached offsets in that state machine | freshness invariant over histories; stale states proved |
| C120 | same; two runs compared | columns that differ by a common shift |
| C121 | same; numpy's broadcast comparison of the sorted indices | permutations of sorted lists; induction over histories |
| C122 | widths, conversions, ellipse points over the reals; leastsq and integration are parameters | trigonometric identities; induction on the recursion limit |
| C123 | files as lists of lines, `str.split`, the cut at `#` | induction over lines and words |
| C124 | names split at the dash, existing files as a list | induction over the number of calls |
| C125 | the configobj file format: quoting, keyword/value/list regular expressions as backtracking matchers in continuation style (compared with Python's `re` on 4000 random lines), lines, text | lemmas on lazy and greedy runs; invariant over histories |
| C126 | prefixes of the text written | same, on prefixes of lines |
| C127 | file system as a map from component paths to nodes | case analysis |
| C128 | outcomes of archives and commands as parameters, recursion limit as fuel | induction on the fuel |
| C129 | `VOTable.lean`: the constructor as a state machine over pulldom's events (expandNode applied), getters with any dictionary order; numpy's text conversion is a parameter | documents as trees, induction over items, resources and tables; the table as stored is characterised cell by cell |
| C130 | the same machine on arbitrary event lists | whatever precedes or follows, the step on the bad event fails; counterexamples for white space, nrows, short rows |
| C131 | `FieldNode`: a heap of fields (contents as in `Verif.Field`) and nodes | one invariant, kept by every call; reading and writing items characterised exactly |
| C132 | `extractField` on trees with arbitrary traversals, filters, converters | map/filter laws; alignment as an if-and-only-if on the selected nodes |
| C133 | `StructuredFieldNode`: class declarations, `addField`, `delField`, `revert`, flag | induction over histories |
| C134 | `__getstate__`, `__setstate__`, `checkonload` | the saved state determines the node field by field |
| C135 | `arrayToNodes`, `arrayToCatalog`: array as a function of column and row, nodes as lists of (source, value) | the loop is a list of (node, row) writes; the last write to a node wins |
| C136 | `LinkField`, `LinkValue`; nodes vanish as an operation of the environment | invariant over histories, exact result of a call |
| C137 | `getFieldValueNodesAtNode`, `getFieldNames` over the traversals of C13 | from `visit_spec` |
| C138 | `SEDField` masks and `getBand` | list lemmas; exact positions after each operation |
| C139 | `Frames.lean`: every matrix of coordsys.py as a product of C42's rotation matrices, epochs int or float, tables as functions | closure of rotations under products; trigonometric identities for the CIRS closed form |
| C140 | `setEpoch`, `setJdepoch` on (position, epoch) pairs | induction over histories, through C27's `dir` |
| C141 | `convert` along a list of legs (start class, matrix of epoch) | induction over the path |
| C142 | galactic, supergalactic, ecliptic matrices | matrix applied to directions in degrees |
| C143 | Murray's matrix, FK4 precession | determinant and first column in exact arithmetic; bounds on sines for the non-reversibility |
| C144 | `RectFrames.lean`: vectors with unit and epoch, spherical coordinates with distance | `Complex.arg` and arcsin identities |
| C145 | parallax legs, `GCRSCoordinates.transformToEpoch`, ecliptic epochs; the Earth's position a parameter | vector identities |
| C146 | `EqCtor.lean`: positional and keyword arguments of any value type | case analysis on the number of arguments |
| C147 | `AirVac.lean`: both conversions, element and shape | real inequalities; Bernstein certificate for the round-trip error |
| C148 | `SpecFeature.lean`: `computeFeatureData` without a fit, numpy slices, convolution and broadcasting included | list/Finset sums; exact on interior extents, failure at the ends |
| C149 | `SpecAxis.lean`: `np.convolve` in 'valid' mode, mean, standard deviation | sums of squares; equivalence with even / geometric spacing over all tolerances |
| C150 | `np.interp`, `resample`, `linearize`, `logify` | induction on the axis |
| C151 | `align_spectra` with its partial effects on failure | induction on the list of spectra |
| C152 | the feature list, removal, assignment, unit change of the centre | case analysis, induction for the nearest |
| C153 | the two engines' expressions, `_fetch`, `recursive_interpolate` with its trail, `__getitem__` | inductive meaning of a text; measure (keys not on the trail) for termination, least heights for completeness |
| C154 | dictionary, order lists, comments and defaults of a section and all operations on them | invariant, shown equivalent to regularity of each operation |
| C155 | `TextTableAction` from the extracted sources on | codes are positions in a permuted list of distinct names; order of first appearance is a recursive spec |
| C156 | the lines of the table as texts, `fmt % x` a function of the column | computation of the lines; failing settings by case analysis |
| C157 | ADS cache, a request counter and an arbitrary server | invariant: the cache holds what an observer of requests and calls would know (`Known`) |
| C158 | the address of a location and the code on a page, as texts | lemmas on `in` and `replace` |
| C159 | attributes of a node, an arbitrary plot that may change them and raise | the two loops of `setattr` over distinct names |
| C160 | rows of two cells up to the call of matplotlib | permutation and sortedness of the sorted rows |
| C161 | lines of `obsdb.dat` → loop state of `__loadobsdb`, sites by `SiteAttr.mk`; `float` a parameter | decomposition of every file into blocks, induction over them; sample of the real file |
| C162 | store of angle objects with references, `Site.__init__` and setters in order, exceptions with the store left behind | invariant of the two angle objects over histories of assignments by anybody |
| C163 | the table and loops of the stellar mass functions over the reals, iteration order of the dictionary a parameter | list of masses characterised for every order; right exactly for one order; CPython 2's order from the hash slots |
| C164 | trees of sections with identities, `merge`, `dict` and `walk` by mutual recursion as in the code, the walked function a parameter | mutual induction over trees, path-wise specification of settings; enumeration of calls |
| C165 | file system as a map of paths, `prep_for_arxiv_pub` step by step with the point of failure, parsing and rendering of the document parameters | frame of every outcome; last-write-wins characterisation of the copies; archive members as the directory |
| C166 | the same for `prep_for_apj_pub`, figures as command lists, iteration order of the dictionary a parameter | distinctness of generated names, dictionary as last pair, exact files for every order |
| C167 | `get_SFD_dust`: names, pair of files, masks, projection and rounding over the reals, compress and scatter of arrays | trigonometry of the projection, induction over the mask |
| C168 | `GaussHermiteModel`: polynomials by recurrence, moments as Lebesgue integrals | orthogonality by repeated integration by parts, induction over the coefficients |
| C169 | the two regular expressions as functions on texts with greedy matching and backtracking, the branches of the constructor | grammar `Allowed`/`text` apart from the matcher; soundness, completeness and unambiguity by case distinction on the first character that differs |
| C170 | the printing functions on texts (digits, padding, separators) over the numbers of C26 | induction over digits, then the theorems of C169 on the printed text |
| C171 | `radec_str_to_decimal`, `angular_string_to_dec` over the reader of C169 | induction over the lists; composed with the printing theorems of C170 |
| C172 | `objects_to_coordinate_arrays` (attributes a parameter), `offset_proj_sep` on real vectors | induction over objects and names; orthogonal decomposition |
| C173 | `lag_to_z` on lists with Python's negative slices | index arithmetic on ranges |
| C174 | `zfind` on one axis: slices, weighted normal equations with Mathlib matrices, pseudo-inverse by two Moore-Penrose equations | orthogonality of residuals, minimum of a list |
| C175 | `ModelSpectrum`: attributes that may not exist, noise function that may raise, random numbers as a parameter | case analysis, invariant over histories |
| C176 | `load_wcs_spectrum` and the constructor of `Spectrum` over lists of HDUs | case analysis, sorted permutations |
| C177 | `load_deimos_spectrum`, `load_all_deimos_spectra`; filters a parameter | permutations, induction over the file names |
| C178 | `loadtxt_text_fields` with its field line as text, `writeFile`; np.loadtxt, np.dtype, eval as parameters | induction over fields, splitting undoes joining |
| C179 | `validate`, `_set_configspec` with copy=False on trees; the validator is a parameter | `valid_iff`, `raises_iff` by strong induction on the spec against the inductive predicates `Fits`, `Clobbers`; `results_exact`, `settings_after`, `subs_after` for one level, with `validate` of the subsections |
| C180 | `flatten_errors` with its two mutable lists, `get_extra_values` | mutual induction over results and sections against the inductive predicates `Fails`, `Reach`; `extra_after` links to `validate` |
| C181 | plotting.py `cumulative_plot` with doplot=False (CumPlot) | filters of sorted numbered lists keep consecutive numbers; numbers of different data are counts; fraction by the last point |
| C182 | plotting.py `square_subplot_dims`, the subsets of `split_histograms`, the points of `plot_histogram` (CumPlot) | loop invariant; each value in exactly one subset by induction over the edges; points by index |
| C183 | ephems.py `_load_jpl_orb_elems`, `_keplerian_ephems` (PlanetTables) | files as relations between lines and tables, induction over them; lookup in the combined dictionary |
| C184 | models.py `ExponentialDiskModel`, `ExponentialSechSqDiskModel` (Disks) | trigonometric identities, estimates for the exponential; norm of the turned point |
| C185 | configobj.py `as_bool`, `as_int`, `as_float`, `as_list`, `restore_defaults` (ConfigAccess) | finite dictionary of words under lower case; mutual induction over trees of sections |
| C186 | phot.py `compute_band_zpts`, `set_zeropoint_system` on a registry of bands, with `computeFlux` of PhotBand (PhotSystems) | loop invariant: named bands have the zero point that does not depend on the old one; scaling of fluxes; text of the name by induction |
| C187 | phot.py `getBandInfo`, `getFluxDensity`, `toSpectrum` with `np.tile` and `reshape` as flat indexing (PhotArrays) | index arithmetic of tile by induction; partial: 2-D observations |
| C188 | phot.py `simulate`: arguments, order of steps, integer and float scales (PhotArrays) | case analysis |
| C189 | configobj.py `_get_triple_quote`, `_multiline`, the regular expressions of triple quotes (ConfigMulti) | lazy matcher: whole text or a shorter one; induction over lines; exact condition for reading back |
| C190 | configobj.py `Builder`, `unrepr`, `write` of one setting; trees of `repr` (ConfigUnrepr) | mutual induction over values and trees |
| C191 | configobj.py `_handle_bom`, `_decode`, the end of `write`; UTF-16 concrete, 8-bit codecs as parameters (ConfigEncoding) | parity of lengths, codec inverses; partial: UTF-16 |
| C192 | `_parse` on classified lines (markers with their depth, settings, unbalanced markers, junk), `_match_depth`, `_load` with and without `raise_errors`, `write` of a tree of sections | parsing is equivalent to a declarative location of every line (induction on the file, generalised over the entries so far); write_spec by mutual induction on the tree; prefixes of full names show that a valid tree has no duplicates |
| C193 | `_sectionmarker` as continuation-passing matchers with Python's order of alternatives, `_quote(multiline=False)`, `_unquote`, `_write_marker` | the run of brackets is maximal, every shorter choice of the name fails because a character that is neither bracket nor space remains before the comment; soundness of every matcher for never_blank |
| C194 | both latitude conversions with the values of `Rea`, `Reb` over the reals; the dispatch on the argument (`AngularCoordinate(*arg)` for sequences and texts) | tan/arctan identities; the normal is the gradient (derivative of the ellipse equation); the bound is a square; case analysis on the arguments |
| C195 | `addFeatureLocation` up to the edges: interpolation, window, slices, both edge searches with any sorting permutation; smoothing abstract | prefix characterisation of "first of the filtered sorted indices"; translation between window and absolute indices; floor/ceil bounds for containment |
| C196 | `build_model_spectrum` with abstract curves and given random draws, the errors of the constructor | induction over the lines; algebra |
| C197 | Spylot's list, current index, shown spectrum, redshift slider with limits; Traits notification order (old, new) and logged exceptions trusted | invariant over all safe histories; the slider width by induction; counterexample steps stated for all states |
| C198 | `_get_priorities` over any finite nonempty set of objects, real arithmetic | bounds and strict monotonicity of each stage; shift invariance of the rescaling gives independence of the weight's sign |
| C199 | masks of guide and alignment stars, the assignments to priority and group in order, the second file's priority; text layout not modelled | case analysis over the roles, which are specified separately |
| C200 | Python 2 `int`/`str`, the loop over cuts, Traits assignment with the swapped handler | the pair (length before the number, number) moves strictly in a lexicographic order, so names never repeat; termination of the handler's recursion |
| C201 | `_nutation_components2000B` with the 77 rows of its table; the nutation matrix of Frames (Nutation) | whole turns drop out of sin and cos; sums of amplitudes by kernel evaluation; chords of rotations; two unit vectors with positive z are not opposite |
| C202 | `_CIOLocator` with the fundamental arguments, `np.fmod`, the 66 terms of the file (CioLocator) | induction over orders; whole turns drop out |
| C203 | both loaders on texts: split, comments, columns, orders (SeriesFiles) | induction over lines; characterisation of the accepted files |
| C204 | rows, columns, panel numbers and images loaded (Mosaic) | loop invariant of the rows; counts of the rows before; induction over images |
| C205 | the tool on lists of typed lines, installations as parameters (InstallTool) | strong induction over the lines |
| C206 | events of the lasso and the queries (ScatterLasso) | step lemmas, counts of matches |
| C207 | the fractions given to subplots_adjust (ScatterLasso) | field arithmetic |
| C208 | deltavir on the densities of CosmoDist (DeltaVir) | closed form of the matter density, monotony, estimates |
| C209 | ax3d_animate: steps, views, frame files (Animate) | induction over segments and frames; injectivity of padded numbers |
| C210 | make_movie: pattern from the listed files (Animate) | the glob pattern of a list is the same for any order; padded widths |
| C211 | ConfigObj.__init__, _initialise, _load, reload, reset (ConfigLife) | case analysis over options, files and configspecs, with the parser as parameter |
| C212 | run_ipython_setup on typed lines (IpythonSetup) | induction over lines; replacement between texts without braces |
| C213 | doneToG0: the section of the file and the groups (DoneTargets) | induction over lines; pointwise marking |
| C214 | logerrplot: fixaxis and the errors passed on (PlotHelpers) | case analysis per point |
| C215 | mpl_context as a function of the body (PlotHelpers) | case analysis over exits |
| C216 | linear ticks of add_mapped_axis (PlotHelpers) | a range cut into blocks; injectivity of an arithmetic progression |
| C217 | rgbEyeColor and its calibration (EyeColor) | insertion sort of three bands; properties of the maximum |
| C218 | scatter_density: bins, counts, threshold, marked points (ScatterDensity) | edges are strictly increasing; sorted counts |
| C219 | the generator of mlab_animate_rotzoom over an arbitrary scene (RotZoom) | invariant over the number of `next()`s; lawful scenes for absolute moves |
| C220 | its arguments, file names and delay (RotZoom) | case analysis; digits and `clog`; floor |
| C221 | plotImage's value ranges, inversion, cache (ImageRange) | counting in sorted lists |
| C222 | the handlers of _PyfitsInstaller on event streams (PyfitsLink) | induction from the end of the stream; specification by decomposition of the page |
| C223 | _get_git_devstr and version (VersionStr) | cutting at the first non-digit |
| C224 | Catalog.insertInto on the forest of C11 (InsertInto) | the tree invariant, two parent assignments |
| C225 | Site.yearPlot: transit and bar of a day (YearPlot) | case analysis, linear arithmetic |
| C226 | SEDField.plotSED: axis limits (YearPlot) | folds of max and min |
| C227 | Spectrum.fitContinuum over sessions, models and window as parameters (FitContinuum) | case analysis; induction on the history |
| C228 | Spectrum.plot: the curves (SpecPlot) | linearity of the mean; filters |
| C229 | Spylot's line markers and histogram (SpylotDraw) | duplication commutes with sorting; list positions |
| C230 | labels, tools and overlays as one transition system (SpylotWidgets) | two invariants, induction on the history |
| C231 | range, click and base-line selection (SpylotDraw) | invariant of the dragged end; linear arithmetic |
| C232 | plot_band_group: names, order, colours, units (BandGroup) | sortedness and uniqueness of sorted permutations; linear arithmetic; induction on the bands |
| C233 | extinction_from_flux_ratio (FluxRatio, over Extinction) | unique zero of the residual; logarithms; the law evaluated at the Balmer lines |
| C234 | getFullSED and the constructor of spectra (FullSed) | permutations; any argsort |
| C235 | scatter4d (Scatter4d) | membership in the filtered positions |
| C236 | mlab_camera, mlab_anaglyph, mlab_checkerboard (Camera) | closed form of a history by induction |
| C237 | nightTable, nightPlot (NightPlot) | case analysis over all arguments |
| C238 | LineListEditor, default lines, names of lines (SpylotLists) | first match; filters and permutations |
| C239 | features: highlights, marks, deletion, editing (SpylotLists) | invariants over histories |
| C240 | the `distance`/`distmod` handlers of the target window with `_distinner`, Traits firing only on change, the analyzer modulus, exceptions swallowed; both conversions are parameters | handler lemmas for flag down/up; invariant over histories; the plain formulas as instance; the swallowed change |
| C241 | `_priband_changed` with its self-assignment, nesting bounded by a parameter | case analysis; induction on the nesting for the endless case, on the history for `band_stays` |
| C242 | guide/alignment masks, the `updategastars` event with its four values, and the handlers that fire it; a star is a record, the plots are lists | invariant over histories of cuts, bands, axes, priorities, places and new analyzers |
| C243 | the same | direct computation; induction on the axis changes for `cleared` |
| C244 | the offset settings window on top of the CMDAnalyzer model: opening, OK, cancel | reachable-state invariant of `Cmd`; congruence of `calcOff` for the round trip |
| C245 | `sky_sep_to_3d_sep` on the coordinates of LatLong/RectFrames, the conversion of other arguments as a parameter | from `separation3d_exact`, norm inequalities |
| C246 | `Spectrum.computeMag/computeFlux`; the registry and the bands' own methods are parameters | induction on the list of bands |
| C247 | `FileBand.__init__`: extension, type and shape of the text table; the readers are parameters | list lemmas on the last dot and slash; case analysis on the table |
| C248 | `Verif.DocSig`: the loop over the reversed defaults, the order of the parts, the text and the list for all functions | induction over the defaults with the tail of the arguments as accumulator; the failures by cases |
| C249 | `Verif.TodoMod`: the selection of lines, the two replacements, `strip`, the numbering and the failures | the loop is a flat map over the numbered lines; the numbers of two directives are adjacent ranges; replacements by induction over the text |
| C62 | `TeXFile._parse`, `_addin_comments`, `Preamble.__init__`, `Comment`, `save` over the C38 parser; a file is a list of lines (body, comment) | the command standing for comments occurs in the marked text only as the marks; induction on the parser shows every printed node has the comments put back in place of its marks, declarations contain none; uniqueness of the restored text |

## Not modelled

* Plotting (plotting.py) and GUI event loops (gui/), matplotlib/mayavi/traits calls.
* scipy's optimisers, integrators, interpolators and FFTs: they appear as parameters with a stated specification
  (a root of the function, the integral, any homogeneous functional, ...), or the theorem speaks of the arguments
  handed to them.
* FITS bytes, pickle bytes, zip/tar contents, XML tokenisation (pulldom's events are the input), sockets: histories over an abstract store instead.
* CPython/numpy internals: rounding of floats (theorems over the reals or rationals unless the row says "double"),
  integer overflow, dict order (a parameter where it matters), garbage collection of weak references.
* Reference data files (line lists, planet tables): arbitrary tables instead of the actual numbers.

## Defects found while modelling

Proved as theorems (the `_partial` rows above name them) or, where a function fails before it does anything that
could be stated, found by reading and listed here only.

* **pipeline.py** `CallMethodMessage` always raises NameError; `insertInto` always raises; `clear()` keeps the attempt counters.
* **objcat.py** a refused `addField` replaces the attribute; a removed field can never be added again; `extractField` gives
  masks and sources of other nodes than the values under callable filters; `revert` drops all stored values;
  `getFieldValueNodes` NameError; unmatched or refused rows of `arrayToNodes`/`arrayToCatalog` overwrite other nodes; a link
  assigned twice with a string as key is lost; masks of an SED move to other values; `Catalog.insertInto` always raises;
  setting `SEDField.specunits` converts none of its values.
* **objcat.py** `registerNotifier` inverts its argument-count check; `_setCurr` loses the value if a notifier raises;
  two unnamed dependent sources can clash as `dependentN`.
* **coords** `rotation_matrix_xy` always NameError (`n`); `angle_axis` ignores `degrees`; `matrixRotate`'s check tests
  normality, not unitarity; `getCoordinateString(hmslong=True)` TypeError; `AngularSeparation` + and * raise, true division floors;
  `radec_str_to_decimal(one argument)` NameError; `physical_to_angular_size(objout=True)` NameError;
  `jd_to_epoch(mjd=True)` changes the caller's array; the transform registry's closures bind late and its caches are
  never invalidated; angular distances inverted only to z = 5.
* **coords/coordsys.py frames** FK5 precession has the signs of 0.000344·T and 0.000066·T turned round; equinox coordinates
  apply the old nutation instead of undoing it; later steps of a
  conversion use the default epoch; GCRS to ICRS subtracts the Earth instead of adding it, and the distance is put back
  afterwards; the switch to AU below 1000 AU compares a tuple with a number and never happens; two values of AU per parsec;
  a new epoch for rectangular GCRS or ecliptic coordinates TypeError (missing self), for ecliptic ones AttributeError after
  the move, with the latitude stored as its error; TIO locator in radians taken as degrees; `epochstr` cannot be assigned
  what it returns; FK4 refuses the epoch 2000; FK4 to FK5 keeps the Besselian label; `separation3d(usez)` NameError; three
  positional arguments and unknown keywords dropped; `getCoordinateString` ignores its labels.
* **ephems.py** the default eccentric-anomaly tolerance is the obliquity (23.4); '-long' corrections never applied;
  `getPhase` default KeyError; `set_solar_system_ephem_method(bad)` NameError; missing angles recurse for ever;
  `epoch0` assignment ignored.
* **obstools.py** calendar: early Gregorian dates, default rounding a second late, microseconds dropped, integer arrays
  changed in place; `delta_AT` a month late; `Extinction(f=callable)` ValueError; `computeA0` with several decrements
  UnboundLocalError; `nightTable` ImportError; `riseSetTransit` uses the machine's zone; errors swapped in
  `equatorialToHorizontal`.
* **io.py** `writeFile` always raises; `loadtxt_fixed_column_fields(updatedict)` fails without masked arrays; `get_data`
  NameError for pathless HTML URLs and ZeroDivisionError for empty bodies, file named 'urlmap' clobbers the shelf;
  a failing `fpickle` overwrite destroys the old content; Tipsy dark slice.
* **publication.py** `Comment` ending in a newline TypeError; `EnclosedDeclaration` from a string TypeError; the shapes of
  C38 that do not come back; comments inside arguments or after a brace are replaced by `\astppubcomment{k}` in the saved
  file; `\documentclass[]{a}` loses its brackets, `\documentclass[%` raises IndexError; a file without preamble gains a
  new line.
* **spec.py** integer arrays truncated by unit changes; joules unreachable; `FunctionSpectrum.flux` cannot be set;
  `__eq__` ignores units; `removeSpectralFeature(name)` raises, `features` assignable only once; features at the ends
  of a spectrum refused or wrong; unit changes set `centererr` to the centre; `align_spectra` 'super' is 'sub';
  `isXMatched` ignores shifts; `air_to_vacuum(number)` gives an array, `vacuum_to_air` not monotone at 2000, round trip
  off by more than documented; `addFeatureLocation` with a boxcar ImportError; `load_line_list` one-column lines
  IndexError.
* **constants.py** `choose_cosmology(wrong type)` UnboundLocalError after switching autoupdate off.
* **phot.py** `ML_ratio_from_color` TypeError; `AsinhMagnitude` NameError; `GaussianBand` and
  `KernelPointSpreadFunction` constructors AttributeError; `Band.alignBand(array)` UnboundLocalError; CMDAnalyzer's
  stale offsets, colour order and half-measured colours; `IsophotalEllipse` argument mix-ups; SExtractor input files
  lose characters and overwrite.
* **stats.py / gen.py** MAD ignores its centre; biweight NaN when MAD is 0; `Pca` energy selection AttributeError;
  `DataObjectRegistry.__delitem__` TypeError; `add_docs` on undocumented functions TypeError.
* **ccd.py** `FitsImage` with a scaling AttributeError; write-back transposed; overscan subtracts the signal from itself;
  one-sided sigma clipping; masks lost by saving.
* **models.py** missing Jacobians in integration fallbacks; King2D rises beyond the tidal radius; `Cvir_to_Mvir`
  NameError; Schechter magnitude derivative and integrals; blackbody energy form.
* **config.py** project names with '=' break the registry for ever; the registry is emptied before it is rewritten;
  version requests NameError; zip archives AttributeError; a partial download is never replaced.
* **configobj** (bundled) a scalar named DEFAULT makes references raise AttributeError and switches interpolation off for
  good; a value refused with `stringify=False` leaves a key that `keys()` lists but nothing can read; renaming onto an
  existing key lists it twice; a section assigned over a scalar stays among the scalars; `clear` keeps the default values.
* **objcat.py text tables** numbering sources fails when every value has one; the default ascii table without details fails
  (UnboundLocalError); sorting fails; errors with a source column and deluxetables without details fail (TypeError); an empty
  LaTeX table cuts `\hline` to `\hli`; details of ascii tables with errors go to the wrong titles; lower errors of
  logarithms have the wrong sign; an unknown format raises AttributeError.
* **objcat.py sources and actions** clearing the ADS cache fails when it is off or does not hold the code; bibcodes of preprints are
  looked up as something else; a blank after `doi:` stays in the address; a refused constructor of a plotting action leaves the node in the catalog; histograms
  (`host`), error bars on logarithmic axes and graphs of more than one node (`add_edge` with one argument) fail.
* **obstools.py** `nightTable` imports `.astropysics`, which does not exist (not modelled).
* **obstools.py sites** `obsdb.dat` latitudes such as `-29:15.4` are read as -29 + 15.4/60 (ESO, Siding Spring, Anglo-Australian,
  Las Campanas misplaced by up to 40'); seconds of arc are ignored; an entry without latitude is put on the equator;
  `Site((d,m,s),...)` raises TypeError; the fallback `tzoffset` class without dateutil takes seconds for hours.
* **phot.py stellar masses** the luminosities, iterated in the order of a dictionary, are multiplied by ratios in the order of the table; in
  CPython 2 every band but g gets the ratio of another band; `ML_ratio_from_color` and the functions using it always raise TypeError.
* **configobj.py** `merge` makes sections of the other configuration part of this one, so that later changes show up in both; a
  subsection replaced by a setting stays in `sections`, after which `walk`, `write` and `dict` trip over it.
* **publication.py submissions** figures of subdirectories are copied flat, so that the document does not find them, and two of the same base
  name overwrite one another; a relative `newdir` of several parts makes the archive fail, an absolute one puts it beside the directory;
  ApJ: a file of two figures is there for the last only, `\\plotfiddle` raises IndexError, a missing .bib file UnboundLocalError;
  `\\includegraphics{plot.eps}` is looked for as `plot.eps.eps`, and figures in nested environments are not found (not modelled).
* **obstools.get_SFD_dust** a single file name always ends in UnboundLocalError (`ns`); with `interpolate=False` the equator at longitudes 0
  and 270 degrees is one pixel beyond the map (IndexError); `get_dust_radec` imports a function that is commented out.
* **models.GaussHermiteModel** without coefficients the sum over an empty list makes the result empty or raises ValueError.
* **coordsys.AngularCoordinate(text)** `'12 30'` is 12 degrees and 30 *seconds*; `'12:30'` is 12 minutes and 30 seconds of a degree even with
  `sghms=True`, and `'+12:30'` is refused; the empty text is 0 degrees; a copy ignores `range`.
* **coordsys.getDmsStr/getHmsStr** the default separator contains the degree sign, which the constructor does not read (and
  `obstools` 1434 writes it through `str.format`, a UnicodeEncodeError); `sep='dms'` and `'hms'` raise TypeError;
  `getCoordinateString(hmslong=True)` raises TypeError and `labels` is not used.
* **coords.funcs.radec_str_to_decimal** with one argument always UnboundLocalError; **offset_proj_sep** returns the component along the line of
  sight, not the projected separation; **coordsys.angular_string_to_dec** ignores `hms`; **objects_to_coordinate_arrays** with the default
  `coords='auto'` raises NameError (`EquatorialCoordinates` does not exist).
* **spec.lag_to_z** the lag 0 is nan for every pixel (`z[-0:]` is everything, `z[:-0]` nothing), and so is its redshift in `zfind`.
* **spec.zfind** the reduced chi squared uses unweighted residuals, so bad pixels decide over the best lag; with as many templates as pixels the
  template array is not transposed.
* **spec.ModelSpectrum** the constructor raises AttributeError for every noise function (`_setNoisefunc` reads `_noisefunc` and `_noisetype` before they
  exist); the errors are computed from the flux before the assignment; `noisetype=None` leaves the noise in the flux until `x` is assigned;
  `noisefunc=None` with a noise type makes every assignment to `x` fail after it changed the axis; with Poisson noise `x` cannot change its length.
* **io.load_wcs_spectrum** ignores CRPIX1; errors stored as a 1xN array are refused; 'ierr' and 'var' without an error extension raise TypeError.
* **io.load_deimos_spectrum** `sky` keeps the order of the file while the pixels are sorted; `retdata` with one arm raises UnboundLocalError.
* **io.loadtxt_text_fields** with a delimiter the line end stays in the type of the last field; a file shorter than `fieldline` is UnboundLocalError.
* **io.FixedColumnDataParser.writeFile** overwrites its file object with a type and raises AttributeError after having emptied the file.
* **configobj.validate** a section where the configspec has a setting with a default raises AttributeError; without `preserve_errors` a subsection
  with mixed results does not keep the section above from returning False; **flatten_errors** reports a value in place of a section with its name, not None.
* **Cumulative curves between edges (C181)**: the numbers of data outside the edges are not subtracted, so N(<x) jumps from 0 at the lower edge to the number of data below it (`less_between`, `edges_count`).
* **N(>x) with one edge (C181)**: numpy is given None as a number (`greater_between`).
* **Corrections of the long ephemerides (C183)**: `_keplerian_ephems` renames n to n-long before it looks for the correction of n, so that none is ever used (`correction_never`).
* **Range hint of the sech² disk (C184)**: starts at the centre, half of the disk is outside (`half_hint`).
* **Flux densities of several values per band (C187)**: `np.tile(w,shape[1]).reshape(shape)` repeats the widths along the rows, so values are divided by widths of other bands (`tile_wrong`; right exactly for one band or one value: `tile_right_iff`).
* **Simulated images (C188)**: a measured psf uses the undefined name `normpsf`; truth values of arrays are taken.
* **GaussianBand**: the constructor calls `_updateXY`, which uses `_unittrans` and `_x`, before they exist: always AttributeError (`PhotArrays.gaussian_never`; no property of its own).
* **Triple quotes (C189)**: `tsquot` and `tdquot` are exchanged (lines 80-81), a value with ''' inside is written between ''' and can be cut or unreadable (`swapped_quotes`, `example_multi`).
* **Dictionaries as values (C190)**: with unrepr a dictionary can be read but `write` takes it for a section: AttributeError (`setting_iff`).
* **UTF-16 (C191)**: one byte of line break is appended to the encoded file, which then has an odd number of bytes (`utf16_written`); the mark of the other byte order becomes part of the first name (`read_unspecified`); `infile.startswith` of a list (`lines_utf16`).
* **configobj UnboundLocalError** (configobj.py 1591-1595): without `raise_errors` a file whose first section marker is deeper than one level raises UnboundLocalError (`parent`), not NestingError/ConfigObjError (`load_exact`).
* **configobj section names** (configobj.py 1100-1115, 1985-1991): names with brackets at their ends are written without quotes; `[a]` is read as a deeper section `a`, `f[0]` makes the file unreadable (NestingError), blank names are lost (`plain_exact`, `never_blank`).
* **latitudes from texts** (coords/funcs.py 1082-1086, 1110-1114): `isSequenceType` holds for texts, so a text is spread over the arguments of `AngularCoordinate`; '45' is taken as 4 degrees, longer texts and (d, m, s) are TypeErrors (`text_45`, `input_exact`).
* **addFeatureLocation** (spec.py 1021-1087): with a continuum the edges are the nearest pixels with any difference, not the zero points; `window=None` ignores the location; `smooth <= 0` imports `unifom_filter1d`, which does not exist; without a continuum `trans[transorti]` indexes the wrong pixels (`example_edges`, `no_window`, `boxcar`, `flux_index`).
* **build_model_spectrum errors** (spec.py 2216-2220): the errors are the deviations that were drawn, not the amplitude, so every pixel is exactly one error off (`noise_exact`).
* **Spylot** `_currspeci_changed(self, new, old)` has its parameters swapped, so it checks the old index; after deleting the last spectrum, or after a number that does not exist, the plot and the current spectrum differ (`delete_last`, `bad_index`); `_loadaddspec_fired` appends an unbound local.
* **SpecTarget** the sign of the band weight has no effect (`sign_irrelevant`); names like `mask-3` count down (`dash_counts_down`); `_maskshortname_changed(self, new, old)` has swapped parameters, so with the initial name the short names repeat after ten masks (`short_repeats`); in the second file all guide stars chosen by brightness become alignment stars (`no_guides_left`).
* **mosaic_objects** (ccd.py 1689-1783): a single row number, lists, tuples and floats as `row` always fail (`other_rows`).
* **run_install_tool** (config.py 447-561): a number out of range raises IndexError again in its handler and ends the tool; zero is the last package (`out_of_range`, `pick_from_the_end`); 'mac' is never in the name of a system ('Darwin'), so sudo is never chosen there (`platforms`); the prefix is not used for single packages (`pick_tries`).
* **ScatterLasso** (plotting.py 684-787): activating again keeps stale indices (`stale_selection`); attribute names are not remembered and keys replace the table remembered (`forgotten`); an empty dictionary gives an array.
* **subplots_adjust_points** (plotting.py 788-807): the unit is dots, not points (`points_only_at_72`).
* **Catalog.insertInto** (objcat.py 2597-2615): `newparent.index` does not exist for catalogs, so it always raises AttributeError before changing anything. **nightTable** (obstools.py 1362): imports `.astropysics`, always ImportError.
* **ax3d_animate** (plotting.py 1127-1244): the initial frame is written as number 0 and overwritten by the first step (`initial_view_lost`); predelete comes before the checks (`deleted_before_checks`); zero frames is a ZeroDivisionError (`zero_frames`).
* **make_movie** (plotting.py 1489-1566): `run` is ignored, options use an undefined name, several numbers fail (`movie_limits`); older, longer frame numbers hide frames.
* **ConfigObj** (configobj.py 1187-1373, 2323-2359): a keyword equal to its default loses against the dictionary (`default_keyword_loses`), which is changed in place; reloading a missing file with file_error loses the contents (`reload_lost`); the indentation of the first load stays (`indent_stays`).
* **run_ipython_setup** (config.py 562-665): answers are written with their white space; a backend with '{GUITK}' in it is replaced again (examples in IpythonSetup).
* **doneToG0** (spectarget.py 752-791): an object numbered 0 marks the last one (`zero_is_last`); a file without selected objects is a ValueError (`nothing_selected`); a data line that holds 'Selected Guide' is still read (`section_read`).
* **logerrplot** (plotting.py 101-188): for logaxes='x' the errors of the axes are exchanged (`exchanged`), and further keywords are a TypeError; `lolims` and `xlolims` always raise (`popd`); a zero without error stays off the axis (`zero_without_error`).
* **`scatter_density` omits points**: those on a bin edge, always including the extreme ones, are never drawn; the default threshold is the sixth, not the half, and for sparse data it is 0, so that nothing is drawn (C218).
* **`mlab_animate_rotzoom` never saves its last view**: every frame is saved before its move (C219).
* **`plotImage`'s `n#`/`p#` codes are off by one at the upper end**: `sortval[-nigup]` is the lowest value to be ignored, so `n1` keeps the brightest pixel (C221).
* **`Catalog.insertInto` cannot work**: catalogs have no `index`; with a field node for parent it can stop half way (C224).
* **`nightTable` cannot work** (`from .astropysics import coords`); not modelled.
* **`Site.yearPlot` draws its bars upside down**: matplotlib takes the lower length first; and after an evening transit the set is 24 hours off (C225).
* **`plotSED` fails for spectra with photometry**: it assigns `mny` where `mnx` is meant (C226).
* **`fitContinuum(evaluate=True)` blocks further fits without a model** (C227).
* **`Spectrum.plot(ploterrs=True)` rescales the errors**: `np.isscalar(True)` holds, so the branch for `True` is never reached; the continuum ignores `restframe` (C228).
* **Spylot's labels**: they stay when the last line is deselected, and they use `l.loc` where the markers use `getUnitLoc`, so they are misplaced in other units (C230).
* **Base lines drawn from right to left are mirrored**: `computeFeatureData` sorts the ends but not the two continuum values (C231).
* **`plot_band_group` with one band** computes its colour as 0/0; with duplicate names bands are lost and the red end is never used (C232).
* **`getFullSED` puts photometry at centre/width** (`px/pw`) and in Ångström whatever the unit of the SED; several values per band are a ValueError (C234).
* **`scatter4d` takes the logarithm before it tests for positive values**, so colours and sizes up to 1 are dropped; its check of lengths chains `!=` (C235).
* **`dostereo=None` does not toggle** (a local variable is set), and `mlab_camera` loses the focal point at the origin (C236).
* **`nightTable` cannot run** (`from .astropysics import coords`), nor `nightPlot` (C237).
* **Spylot's line lists**: the stellar minor list contains the major lines (`c not in major` compares a line with names), setting `selectedobjs` sets `names`, which nothing reads (C238).
* **Spylot's features**: recalculating does not update the highlights, deleting the last feature leaves the button enabled for an index that does not exist (C239).
* **_distance_changed / _distmod_changed** (spectarget.py 295-312): the flag `_distinner` stays up when the derived value is already shown, and then the next change the user makes is shown but not passed on (`DistSync.swallowed`); as `distance_modulus` uses the cosmology for every nonzero distance (`np.any(z) > 0.1`) while `distance_from_modulus` does not, a user can reach this. Opening the window on an analyzer, or giving it a new one, can change the modulus of that analyzer (`opens`, `replaced`). The label says kpc, the conversion takes pc.
* **_priband_changed** (spectarget.py 314-319): when the previous value is not a band either, as when the window opens with a colour on the y axis (line 273), the handler calls itself until the recursion limit (`DistSync.band_spec`).
* **_updategastars_fired** (spectarget.py 460-488): clearing `agband` empties `gx`,`gy`,`ax`,`ay` in the data of the wrong plot, so the colour-magnitude plot keeps the old marks (`GuideStars.cleared`). `_updatepri_fired` does not redo the marks when `agigpri` is exactly 1, although the priorities then matter (`stale`). A new analyzer does not bring its positions to the map (`targets`).
* **OffsetDialog** (spectarget.py 101-106): the window cannot be opened while `offsetbands` is None, the default (`OffsetDialog.opens`); OK with a wrong number of scales takes the bands, forgets the weights and then fails (`applied`).
* **Spectrum.computeFlux / computeMag** (spec.py 805): `phot` is not a name of the module, so anything but a text of band names is a NameError (`SpecFlux.only_texts`), although bands and sequences are documented.
* **FileBand** (phot.py 697): the extension from `splitext` has a dot and is compared with `fits`/`fit` without one, so FITS files are never recognised (`FileBand.never_fits`).
* **add_docs_and_sig** A function without defaults or without docstring is a TypeError; the rest parameter is written first, so `def f(x,*r)` is documented as `f(*r,x)`.
* **TodoModule.run** `_` is not imported: unless sphinx has made it a builtin, any module with a to-do line is a NameError.
