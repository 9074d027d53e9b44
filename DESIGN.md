# Formal model of ajeldorado/falco-python in Lean 4

## Layout
* `properties.jsonl` – the property list (C01, C02, ...), each stated in terms of the public API and its observable effects.
* `lean/Verif/Model/*.lean` – the model, one file per area; every definition cites file and lines in /repo and says where it simplifies.
* `lean/Verif/Lemmas/*.lean` – helper lemmas (no property statements).
* `lean/Verif/Props/*.lean` – small specifications and the property theorems `Cnn_...`, each with an `example`
  (or a `_violated` witness) showing that its hypotheses are met by a concrete non-trivial case.
* `MANIFEST.json` – property -> theorems, written by `tools/gen_manifest.py`.   `seeded/LOG.jsonl` – seeded-bug experiments.

## Modelling conventions
* **Numbers.** float64/complex128 values are modelled by ℝ/ℂ (or an arbitrary linearly ordered field). Rounding, overflow,
  NaN and infinities are *not* modelled unless the property is about them: C50 (validators) has an explicit value type with NaN,
  C92 (mean of an empty annulus) and C96 return an optional value where NumPy returns NaN, division by zero is an explicit error
  where Python scalars raise (`ZeroDivisionError`, C74) and is noted where NumPy would return inf/NaN.
* **Arrays.** `Fin n → α`, `ZMod n → ZMod n → ℂ` (cyclic planes, for FFTs, rolls and negative indices), `Img` (height, width, total
  function on naturals, for images whose shape is computed) or lists. Slices use Python's clamping/negative-index rules (`pyBound`);
  that an index is in range is proved, not assumed.
* **Exceptions** are values of `Except PyErr` (one constructor per Python exception class met).
* **Mutation/aliasing.** Objects mutated in place are modelled by state-passing; where two names share one array (shallow copies,
  Jacobian sharing, estimator/event sharing) the model has an explicit cell or heap.
* **Threads** are sequences of atomic steps on a shared state; theorems quantify over all interleavings (C45).
* **Randomness** (C104) – draws are measurable functions on an arbitrary probability space; C104_quantised holds for every realisation.
* **External calls** (camera images, scipy solvers, FITS I/O, interpolation) are parameters of the model; the contract assumed of
  them is a hypothesis of the theorem or a field of the parameter structure, with a concrete instance beside it.
* **Violated properties.** If the code does not satisfy a property as a user would state it, the property is stated as what the code
  does guarantee, with the exact condition where we found it (the `_iff` theorems: C02, C09, C11/C12, C22, C26, C27, C29, C59, C63, C93, C98, C99),
  and the failure is proved on a concrete reachable witness (`..._violated` theorems). Those witnesses are existence claims: they
  are not tests standing in for a universal property.
* There are at present no `_partial` theorems: where a property as first written was too strong, its statement was changed to the exact
  condition and the failing part is recorded as `_violated`.

## Trusted base
* Lean 4.33.0 kernel; Mathlib's definitions used in statements (ℝ, ℂ, `Matrix`, `Real.sin`, `HasDerivAt`, finite sums, integrals ...).
* Axioms: every theorem depends at most on `propext`, `Classical.choice`, `Quot.sound` (checked with `#print axioms` through vcheck);
  no axioms of our own, no compiled evaluation.
* The faithfulness of the hand-written model to the Python source (each definition cites lines), and the assumption that NumPy/SciPy
  primitives (fft, dot, roll, argsort, unique, linalg.inv, ...) do what their documentation says in exact arithmetic.

## Plan per property
The last column says what is *not* covered, if anything beyond the general conventions.

| id | model | proof method | outside the model / remarks |
|----|-------|--------------|------|
| C01 C02 | `Model/Util` padCrop: slice bounds of `pad_crop` on both axes | case analysis on parity, `omega`; C02_chain_iff exact condition for chaining | float sizes |
| C03 | `⌈x/2⌉` definitions on ℝ, `nextpow2` via `Real.logb` | order properties of ceilings/logs | float log2 error |
| C04 | axis as function of index | arithmetic on ceilings | |
| C05 | padding amounts as integers on top of padCrop | `omega` | |
| C06 | block sums | reindexing; C06_not_divisible error case | |
| C07 | flips and rolls as index maps on `ZMod n` | modular arithmetic | |
| C08 C09 | DFT as explicit sums on `ZMod n` | character orthogonality, Parseval | FFT library trusted |
| C10 | matrix Fourier transform as double sums | roots of unity sums | |
| C11 C12 | `Model/DmConstraints`: record + folds in program order | list induction; iff for idempotence; history induction | |
| C13 | `discretize_surf` on ℝ | floor/round inequalities | np.vectorize dtype effects |
| C14 | index maps of rot90/fliplr vs poke-cube index arithmetic | modular arithmetic for every Nact | |
| C15 | double loop as list of visited pairs, `apply_neighbor_rule` as fold | invariant induction, violation witnesses | |
| C16 | superposition as fold of box additions | linearity of finite sums | |
| C17 | height curves | `HasDerivAt` | |
| C18 | 3×3 closed forms | `ring` with sin²+cos²=1 | interpolation (`map_coordinates`) |
| C19 C20 | quadratic form over `Fin n → ℝ` | completing the square, positive definiteness | conditioning of `inv` |
| C21 C63 | trial loop, argmin as scan | list induction; iff for serial = parallel | |
| C22 | trial loop on DM state with constraint side effects | history induction; iff | |
| C23 C24 | schedule rows as lists, digits of the relin code | induction on rows | |
| C25 | mask/scatter over concatenated legend | list index lemmas | DM8/DM9 read bug (dm9.V for DM8) not stated |
| C26 | filter + tied union + sort | membership characterisation; iff | |
| C27 | shared Jacobian cell | induction over iterations; iff | |
| C28 | `Model/Compact` reverse mode of compact_general as composition of linear maps | derivative of quadratic cost, adjoints of MFT/ptp/relay | optimiser (scipy) is a parameter |
| C29 | bounds arithmetic | linear arithmetic; iff | |
| C30 C31 | column assembly in act_ele order, ties | list lemmas; violations | multiprocessing pool = map |
| C32 | precomp/lyot Jacobian vs compact model, explicit propagation operators, boxes | `HasDerivAt` of `exp` ∘ linear; embedding lemmas for sub-window propagation | DM surface = poke-cube superposition |
| C33–C36 C65–C67 | `Model/Est`: per-pixel least squares via a Moore–Penrose inverse (`Model/Pinv`), full state machine of `pairwise_probing` | normal equations, state induction | Kalman filter is not implemented in the code |
| C37 | star/mode loops | sums vs last write | |
| C38 C39 | list constructions of weights/modes | sums, bijections | |
| C40 C42 C43 | crop, padding loop as inductive relation, ring weights | termination via doubling, products | |
| C41 | region masks as predicates over angle arithmetic | case analysis per side string and shape | |
| C44 C45 | image sums; small-step threads with shared registers | interleaving induction; bad schedules | |
| C46 C47 | WFSC loop with history arrays; alias cell | induction over iterations | plotting, pickling |
| C48 C49 C68 | `Model/Config`: attribute programs with in-progress flags, merge, dict/attribute store | big-step semantics, induction on fuel and derivations | Python name resolution inside lambdas |
| C50 | Python scalar values incl. bool, NaN, complex, bytes | case analysis | |
| C51 C52 C69 | table indices | floor/argmin inequalities; modular arithmetic | |
| C53 | loops over rings | count by induction; lattice bijection | segment drawing itself (prop_polygon) |
| C54 C78 | Noll loop as list; radial polynomials | list bijection; orthogonality by polynomial/Jacobi integration; the written text parsed by a small grammar (`C54_text`) | |
| C55 C70 C71 C87 | 2×2 complex characteristic matrices, branch of sqrt | energy-flux invariant by induction over layers; complex algebra | refractive-index interpolation |
| C56 C72–C75 | `Model/Proper`: pilot-beam record + field, four propagators | invariant induction over call lists; Parseval; `field_simp` | |
| C57 | file map + process globals | history induction | |
| C58 C76 C77 | index maps, DFT | modular arithmetic | |
| C59–C61 | prefilter matrix, stamp box arithmetic, crop loop | matrix transpose/invertibility; interval arithmetic; fuel bound | |
| C62 | two-quadrature vortex propagation with window and mask | adjoint of explicit sums | scipy.signal Tukey window is a parameter |
| C64 | `prop_fit_dm` loop | monotone rms, bounded rounds | |
| C79 C80 | index arithmetic; cartesian product | `omega`; list induction | |
| C81 | vortex Jacobian vs FFT vortex model | `HasDerivAt`; crop lemmas | |
| C82 | no_fpm, minimizeNI | quotient rule | |
| C83 | probe shapes in surface coordinates | trigonometric identities | surface-fit is a parameter with its residual |
| C84–C86 | diff_dm render/backprop | adjoint of explicit sums; cyclic convolution | tilted DM: see C117 |
| C88 | full model vs compact model as two separate functions | equality of operator compositions; witnesses for the differences | PROPER full models of Roman/other layouts |
| C89 | get_expected_summed_image with constraint side effects | state lemmas + finite sums | |
| C90 C91 | star tilt, Zernike input | Fourier shift theorem; derivative of `exp` | |
| C92 | calc_zern_sens loops with state | induction on loops | |
| C93 C94 | sampling of Noll polynomials; 22 annular formulas | real arithmetic; interval integrals | |
| C95 C96 | operator norms of each stage | Bessel inequality for unaliased DFT; sums | |
| C97 | culling + relinearisation through the loop | history induction | |
| C98 C101–C103 | `Model/Shape`: scan-line/sub-sample algorithms of prop_ellipse, prop_rectangle, falco_gen_ellipse | equality with coverage / strip-mean specification for every pixel | hyper-Gaussian (flagHG) branch of pupil_Simple |
| C99 C100 | `Model/Masks`: DM stop and annular FPM as composition of PROPER masks, antialiasing global | C98 lemmas + product of coverages | |
| C104 | `Model/Detector` | rounding bounds; Bochner integrals; variance of the sum of uncorrelated draws and Minkowski for the rounding | distribution of Poisson/normal only through mean, variance and covariance |
| C105 | `Model/Ctrl`: revCommand, adCost, adTrial | case analysis of the trial (state before/after), best-of-list search | scipy's minimiser is a parameter |
| C106 | `Model/Ctrl`: setUtu, hstackCheck | equality of the penalty with the EFC one; concrete violations | |
| C107 | `Model/Norm`: calcNorm on `compact`/`full`; NormCfg with the thread pool of C45 | division by the maximum of a finite family; linearity of both models in the field; invariant over schedules | plots |
| C108 | `Model/Defaults`: `set_optional_variables` as a list of 146 guarded assignments (transcribed mechanically from the source), run on a configuration of plain and lazy values with the reads of C48 | invariants over the list of assignments; closed facts about the names and guards by kernel evaluation | objects given lazily, values other than scalars where the defaults do arithmetic |
| C109 | `Model/JacWork`: the accesses of `lyot`/`vortex`/`no_fpm` to the shared `xy_box_lowerLeft_AS` as worker programs in the pool of C45; processes writing slices to a directory | invariant over schedules (only one value is ever written to a register, before it is read); invariant of the directory over process schedules; decimal numbers contain no underscore | `np.save` and memory accesses are atomic |
| C110 | `Model/Cubic`: prop_cubic_conv and both C routines on the memory of the image (row- or column-major), the division of rows among threads | the five taps are the kernel W (which vanishes outside); reproduction of quadratics by expanding the four nonzero taps; division of rows by Nat.div | real arithmetic; images of 4 by 4 pixels or more; integer images (result truncated) not modelled |
| C111 | `Model/Szoom`: prop_magnify, prop_szoom and prop_szoom_c.c (both roundings, window test, kernel table, fresh memory as a parameter) | the thirteen taps are the whole kernel because the phase is at most 1 and the kernel vanishes from 6 on; windows in terms of the place by floor/ceil | real arithmetic, π exact; positive magnification; QUICK with the library only |
| C112 | `Model/ErrorMap`: prop_errormap, prop_readmap, prop_resamplemap, prop_rotate on the wavefront record of C59, the cubic convolution of C110, the magnification of C111 | case analysis of the argument handling; reduction to C110/C58 | FITS reading is data + two header cards; SciPy's interpolation and rotation are arbitrary functions |
| C113 | `Model/Downsample`: rotate_shift_downsample_pupil_mask with the FFTs of `Model/Prop`; SciPy's rotate and RectBivariateSpline are parameters | convolution theorem (from C86) on ZMod n, centred residues for the disc, reindexing of sums; `ceil_odd` from C03 | the spline is assumed to interpolate at its nodes (and to be constant outside, for one theorem), the rotation is arbitrary |
| C114 | `Model/VortexMask`: falco_gen_vortex_mask, gen_tukey_for_vortex (with SciPy's tukey and NumPy's interp/linspace after their documentation), mft_p2v2p with them | polar form; the table values are samples of a Lipschitz taper, linear interpolation error; C62 for charge 0 | real arithmetic |
| C115 | `Model/Polygon`: prop_irregular_polygon, prop_polygon (vertices, start corner, chains, sub-row scan with Python's index rules) | position invariant of the scan along the two chains of edges; section of the convex hull at each height; each sub-row adds the exact section length; error propagation for the violated cases | real arithmetic; a polygon closed by repeating its first vertex; the first row of polygons with more than the lowest corner and its neighbours below the array (their other rows: `C115_late`) |
| C116 | `Model/FocalCoords`: falco_compute_fpm_coordinates (compact and full), compute_Fend_resolution; axes of falco_gen_SW_mask from `Model/Region` | entry-by-entry comparison with create_axis as used by the propagations; half-pixel offsets for the violated cases | real arithmetic; the 2-D meshes are the axes repeated |
| C117 | `Model/DmTilt`: propcustom_dm, centering shift of gen_surf_from_act, stamps and padding of gen_poke_cube, homographies, tilted DM.render / render_backprop | each pixel's DM point mapped back through elementary rotations; fftconvolve 'same' as a sum over actuators; inverse homographies; a delta command for the adjoint failure | real arithmetic; SciPy interpolations are parameters; exact pixels per actuator; quarter turns (zero slopes) excluded |
| C118 | `Model/DmStats`: store_dm_command_history, falco_compute_dm_stats, constraint enforcement in the loop, radial_grid; DM constraints of C11/C12 | induction over the iterations; histories are never overwritten; C12's idempotence for the unbiased case; concrete runs for the violated cases | the surface is an arbitrary function of the constrained command; real arithmetic; an annulus without pixels (NaN) excluded |
| C119 | `Model/SurfFit`: fit_surf_to_act, derotate_resize_surface, resample_inf_func; propcustom_dm of C117; prefilter of C59 | specification: a surface 'shows' a DM shape when each pixel has the height of the DM point projected there (C117); the inverse projection and both resampling grids are computed in actuator coordinates; round trip by invertibility of the prefilter | griddata and the splines are parameters: their accuracy on the shape in question is a hypothesis (`Reproduces`), met with no error by affine shapes; prop_fit_dm itself is not in this claim |
| C120 | `Model/PsdMap`: prop_psd_errormap with the FFT of `Model/Prop`, readmap of C112, random numbers as an argument | std/mean of scaled and shifted maps; DFT of the real part of a transform (conjugate symmetry), frequencies of the centred grid = fftfreq; the draw 'all 1/2' meets the hypotheses on every even grid | a flat map (division by zero) is excluded; b > 0; the FITS header only as far as it is read again |
| C121 | `Model/Run`: prop_run, switch_set; a prescription is an arbitrary function of module variables and arguments | induction over the wavelengths; specification `SelfContained`: the outcome depends on the switches and arguments only; Nat bit lemma for the power-of-two test | importing the routine, printing, timing and the in-place multiplication of a shared array are not modelled |
| C122 | `Model/Run`: prop_run_multi, prop_execute_multi, and a model of multiprocessing.Pool.map (chunks, one queue, W processes with their own module variables, events in any order) | inductive invariant over all schedules (every stored result is right, every taken chunk is held, stored or failed); measure for termination under fair rounds; specification `Pairs` of the documented pairing | Pool.map is the documented behaviour of the standard library, trusted; crashes of worker processes are not modelled; np.stack of images of different shapes is left out |
| C123 | `Model/Yaml`: load_from_str, object_constructor, _get_loader, from_yaml on a parsed document; the constructor table of SafeLoader and the context dictionaries are state | mutual induction over documents; specification `Shows` (what a value must be for a part of a document) and `Proper`; induction over histories of calls | the YAML parser, anchors and merge keys are not modelled; scalars are atoms; PyYAML's table semantics are trusted |
| C124 | the four field operators with Python's number/array distinction, shift and broadcast, the three readers and the sampling functions | roll algebra (C58), polar form of complex numbers | strings and other argument types, NaN/inf from division by zero |
| C125 | the 22 polynomials, the loop over indices with the type of the accumulator, the stamp and its clipping at the grid's edges | exact integration of monomials over the hexagon as a certified rational computation; floor bounds for the stamp | float rounding; odd grids for the map |
| C126 | the numbering and places of the segments, OMIT / DARKCENTER / NO_APPLY, the two accumulated maps and their application | lattice bijection by arithmetic, C115 for each hexagon, C125 for each phase map, separating directions for disjointness | hexagons cut by the grid's edge |
| C127 | the text of each formula, the 250-byte cut and what eval makes of the rest | exhaustive kernel computation for radial orders below 90, a length bound beyond | Python 3.13 scoping of exec; rounding of scipy's factorial |
| C128 | the flattening with its meshgrid, the columns for both kinds of polynomial with their errors, least squares by the Moore-Penrose inverse | normal equations, uniqueness from injectivity, polar coordinates under scaling | float rounding, the cut-off of small singular values in lstsq |
| C129 | the profile, the normalisation by minimum and maximum, the three kinds, the multiplication of the field | Taylor bound of sine from the exponential series, minima and maxima over the grid | float rounding; constant profiles (0/0) |
| C130 | the transfer function with its frequencies, the product of spectra, shifts, absolute value, the choice of the size, prop_magnify as in C111 | Fourier synthesis on ZMod n, integrals of harmonics | float rounding; images of one row |
| C131 | bounds as integers or floats, the four corners, prop_ellipse and prop_rectangle as in C101, C103 | the bounds of opposite corners cannot all be replaced by 0 and n | nothing |
| C132 | the header cards, the refusal; reading as in C112 | C112 with the pixel size from the header | the FITS file format |
| C133 | the options as values or absent, order of the checks, prop_fit_dm (C64), prop_add_phase | case analysis; the fit converges because a symmetric kernel with reflecting edges is a convolution on the torus of twice the size | FITS reading, spline interpolation |
| C134 | rectangular grids, reshape, NumPy slices cut at the edge and shape checks | sums over the actuators; shapes never match | as C133 |
| C135 | the product of three super-Gaussian strips in polar coordinates, the walk over the centres (C53) with offset, pad_crop | polar to Cartesian; hexagonal norm and its triangle inequality; distinct lattice points are at least one spacing apart | floating-point underflow |
| C136 | `gen_fpm_surf_from_cube` with NumPy's index arrays (negative indices, repeated positions), `fpm_inf_cube_3x3`, the DM 9 of `setup_fpm` | superposition by analysis of the index arrays; bilinear formula by summing one axis at a time |
| C137 | rings, azimuthal modes and their list in `setup_fpm_cosine`; profile through C136 | partition of unity by `cos` at half-ring distance; number of modes by induction over the rings |
| C138 | control flow of `setup_fpm_cosine`, `setup_fpm`, `falco_gen_fpm`; the names in `falco.mask` | case analysis; the missing name by evaluation |
| C139 | `falco_hex_aperture_LUVOIR_A/B` with their counters and lists of left-out numbers, both pupil functions, on top of the polygon, rectangle and circle models | cells by induction over the loops and evaluation of the finite lists; containment by inequalities on `ceil_even`; values through C101, C115, C126 |
| C140 | `falco_gen_pupil_customHex` on the model of the segments (C135), `cart2pol` | bounds of `exp` for an angle of at most π |
| C141 | `Model/Options`: verify_key_values and every choice made by the five text options, as decisions | case analysis over the documented names for arbitrary strings; specification `Documented`, `kindOf` | str.lower/str.upper are parameters (idempotent); the work inside the branches is not repeated here |
| C142 | `Model/SetupDm`: falco_configure_dm1_and_dm2 (sign, dead map, start), falco_gen_dm_stops (attributes), falco_set_initial_Efields, compute_lyot_stop_coordinates, end of wfsc.loop | induction over the lists; C01 for the resizing | the attribute list of set-up is written out by hand; what the stops look like is in `Model/Masks` |
| C143 | `Model/Bowtie`: gen_bowtie_fpm on the circle and polygon models | the five corners' hull is the sector cut off at twice the radius; C115 without the condition on the start (`C115_late`); `C115_right_violated` for the refused clocking | the first row and the last column; the sub-sampling factor is state of the process |
| C144 | `Model/Interrupt`: calls as functions of a state that return or raise, with arbitrary evaluations | a Hoare rule with two postconditions (return, raise) for each construct; the stays-theorems by running the calls up to the failing evaluation | clipping of commands within evaluations (C12, C22, C65); what is computed from the images |
| C145 | `Model/SimpleMap`: gen_simple_psd_errormap (the draw is an argument), smooth with np.convolve | transform of the real part of an inverse transform; Popoviciu's inequality for peak to valley; reindexing of the convolution | rounding; division by zero for flat maps |
| C146 | `Model/FilmFiles`: gen_complex_trans_table as a machine with one step per file access; processes with a schedule | invariants over schedules (origin of each complete file; a part of a file stays); case analysis of one call | names as tuples of formatted fields; np.save in two steps; the film function is a parameter (C55, C70, C71, C87) |
| C147 | `Model/Caches`: gen_fpm_from_LUT and gen_fpm_cube_from_LUT over `Model/Hlc`, the state mp.compact.fpmCube; make_dm_prefilter_attribute and the fit | induction over histories | profiles of the layers (C136) and the sparse solver (C59) are parameters |
| C148 | `Model/FftLib`: the two files, the two flags of each session, prop_use_fftw, prop_use_ffti, the choice in prop_fftw, prop_begin and the propagations, the factors of the three libraries | invariants over histories of several sessions | the sums of each library, the threads and the wisdom are not modelled; packages do not come or go during a history |
| C149 | `Model/RomanPupil`: both functions: reading of `changes`, the calls of PROPER, the sectors of the tabs with their loops, the size and coordinates of the array, the shift of the centres, the product and np.rot90 | case analysis of the angles modulo a turn; complex rotation for the moves; invariance of the pixel's place relative to a shape | the image of a single shape is any function of the shape and of the relative place (C101, C102 are about these); errors of PROPER's own routines are not modelled; reals for floats |
| C150 | `Model/Occulter`: checks, indices of the materials with np.interp, the loops over the thicknesses, the maps, the unique columns, the loop over them with the shapes of the regions | loop invariant: after the loop a pixel has the value of its column; np.interp against a separate definition of the curve, with uniqueness; C55 for the passivity | reals for floats; strings of ASCII letters; the rows of the two files are parameters with positive indices; `np.unique` gives the columns that occur in any order; maps are arrays of floats |
| C151 | `Model/BowtieLyot`: the whole function: size, centres, radii, the two polygons before and after turning, the product of the images | the polygon within the circle is the sector (both inclusions: convex half-planes; explicit convex combinations), affine images of hulls; the sector in polar coordinates | a polygon is the convex hull of its vertices (as PROPER draws convex polygons, C115, up to one sub-row); images of PROPER are parameters; errors of PROPER not modelled |
| C152 | `Model/DeltaField`: the two metrics with numpy's division, the loop over subbands, the calls over the iterations, the arrays of `out`, the simulated field; the modes of C39 | invariant over the iterations; formulas against sums without filters; explicit counterexamples on two pixels for the missing conjugate | real arithmetic, finite fields; drawing left out; estimator and compact model are parameters; numpy 2.1.3 |
| C153 | `Model/ModeSpectrum`: the stacked Jacobian and estimate, the scale, the projection, the four lists | Bessel's equality in the left singular vectors, least squares and regularised least squares in modal coordinates by completing the square, traces | real arithmetic; rows and actuators as sums of types; the decomposition is a parameter assumed right where it succeeds; drawing left out |
| C154 | `Model/ProbeRecord`: what `pairwise_probing` stores for each exposure, `pairwise_probes` with its changes of views in place, the order of stars and subbands | closed forms of the loops by induction, an invariant over the modes in order, last star per subband | real arithmetic; camera, probes and estimate are parameters; both DMs of the same size (others: C35); drawing and logarithm left out |
| C155 | `Model/DeepCopy`: memory as a list of cells with references, `copy.deepcopy` with its `memo` and `Eval.__deepcopy__`, `mp.dm1.compact` | the relation of originals and copies is an invariant of the recursion and in the end a bisimulation; termination by the number of objects without a copy | attributes and `data` of an Object are one set of fields (C68); expressions return plain values and have no side effects; numbers and strings are copied like arrays |
| C156 | `Model/Snippet` (on `Model/Loop`): the loop as a list of actions on memory and the file, `plot_trial_output_from_pickle` | the file after each prefix of the actions by induction over iterations, using the closed form of the histories from C46 | a dump is one action that fills the emptied file; DM2 and the RMS surfaces are plotted like DM1 and the regularisation and left out; drawing left out |
| C157 | `Model/ProperTable` (on `Model/Proper`): the six lists as rows, `action_num`, the table parts of prop_begin, prop_lens and prop_propagate, `prop_table` | growth of the table by induction over the calls since prop_begin, then the row at each index | number formats and headings left out; exceptions are not caught by the prescription; all wavefronts on the grid of prop_run |
| C158 | `Model/MklFft` (on `Model/Prop`): arrays with any number of axes, `np.take` with Python indices, NumPy's broadcasting in the assignments of `cce2full`, the array in place | arithmetic of the cut of each axis; conjugate symmetry of the transform of real arrays; inversion | MKL is its mathematical definition with the scale factors it is given; contiguous arrays; rounding |
| C159 | `Model/ConfigMerge` (on `Model/Config`): deepmerge's always_merger and `Object.merge` | induction on paths and values | lists of atoms, no sets, no lazy values; sharing of the argument's nested dictionaries with the configuration |
| C160 | `Model/Prop` (C08): ptp with its transfer function | support of the transform of a periodic field, phases of the transfer function there | as C08 (exact arithmetic) |
| C161 | `Model/Polar`: the seven functions with their checks, on numbers, lists and arrays of any shape | argument of a complex number; case analysis of the arguments | rounding, signed zeros, division by a stretch of 0 |

## Which code is modelled
Per file of /repo/falco; "yes" = modelled completely up to the conventions above, otherwise what is left out.

| file | modelled | not modelled |
|------|----------|--------------|
| check.py | all validators | |
| util.py | angular_spectrum_transfer_function, nextpow2, ceil_even/odd, pad_to_even_square, pad_crop, allcomb, _spec_arg, create_axis, offcenter_crop, bin_downsample, gen_simple_psd_errormap, smooth, cart2pol, sind, cosd, broadcast, azimuthal_grid, radial_grid, radial_grid_squared | TicToc |
| prop.py | relay, ptp, mft_p2f, mft_f2p, fft2d, ifft2d, mft_p2v2p, gen_tukey_for_vortex (C114; a parameter in the propagation claims) | |
| dm.py | gen_surf_from_act (orientation, constraint call, differentiable branch caching), discretize_surf, propcustom_dm, gen_poke_cube, apply_neighbor_rule, enforce_constraints, fit_surf_to_act, derotate_resize_surface, resample_inf_func, gen_surf_from_poke_cube, build_prefilter and lsq fit, update_gain_map | spline interpolation and griddata (parameters), FITS reading |
| diff_dm.py | rotation matrices, homographies and warp, actuator lattice, DM.__init__ transfer functions, render, render_backprop, fourier_resample, dm_init_falco_wrapper | spline interpolation of warp (a parameter) |
| ctrl.py | wrapper, cull_weak_actuators, _grid_search_efc, _planned_efc, efc_schedule_generator, _efc, _ad_efc, _planned_ad_efc, set_utu_scale_fac, apply_spatial_weighting, init, wrapup | scipy minimiser (parameter) |
| est.py | wrapper choice, perfect, pairwise_probing (serial/parallel images, model- and Jacobian-based probe fields), gen_pairwise_probe(_square) | bookkeeping of plots |
| imaging.py | all simulation functions | testbed images (parameter), plots |
| model/models.py | full, full_Fourier, compact, compact_general, compact_reverse_gradient, jacobian, apply_ties_to_jac, _jac_middle_layer, write_jac_slices, reassemble_jac_from_slices | Roman/other PROPER full models |
| model/jacobians.py | precomp, lyot, vortex, no_fpm for DM1/DM2 | DM8/DM9 columns |
| mask.py | falco_gen_DM_stop, falco_gen_SW_mask, gen_annular_fpm, falco_gen_pupil_Simple (antialiased branch), falco_gen_ellipse, LUVOIR A/B pupils, falco_gen_pupil_customHex, rotate_shift_downsample_pupil_mask, falco_gen_vortex_mask, gen_bowtie_fpm, gen_bowtie_lyot_stop, Roman pupils (C149, C151) | |
| setup.py | the spectral, modal-weight, coordinate, crop, region, weights, DM padding and storage functions cited in Model/Setup, Region, Source, Loop, Detector, FocalCoords; `set_optional_variables` in Model/Defaults | mask loading, printing, plotting |
| wfsc.py | loop, store_intensities, store_dm_command_history and falco_compute_dm_stats for DM1/DM2 | plotting, strehl bookkeeping, pickling |
| zern.py | all | |
| thinfilm.py | solver, calc_complex_trans_matrix, gen_complex_trans_table (indices, files), calc_complex_occulter | the two tables read from files |
| hlc.py | gen_fpm_from_LUT, discretize_fpm_surf, gen_fpm_surf_from_cube, fpm_inf_cube_3x3, setup_fpm_cosine, setup_fpm (how it ends, DM 9 for '3x3') | gen_fpm_poke_cube (same code as gen_poke_cube, C117), the zeroing of actuators near the edge |
| hexsegmirror.py | count_segments, order and choice of segments in get_support/get_field, the drawing | – |
| config/ | Eval, Object, ModelParameters constructor, yaml_loader, from_yaml | MATLAB loader |
| proper/ | begin, lens, propagate, select_propagator, ptp, stw, wts, qphase, radius, add_phase, end, define_entrance, shift_center, state/savestate family, noll_zernikes, zernikes, ellipse, rectangle, polygon, irregular_polygon, circular/elliptical/rectangular aperture and obscuration, set_antialiasing, fit_dm, cubic_conv with its two C files, magnify, szoom with its C file, rotate, resamplemap, readmap, errormap, psd_errormap, run, run_multi, execute_multi, switch_set, multiply, divide, add_wavefront, get_wavefront, get_amplitude, get_phase, get_nyquistsampling, get_sampling_radians, get_sampling_arcsec, hex_zernikes, hex_wavefront, fit_zernikes, 8th_order_mask, sinc, pixellate, rounded_rectangle, writemap, dm | FFT back ends |
| mkl_fft.py | fftshift, cce2full, proper_fft2, fft2, ifft2, rfft2 (irfft2: its assertion) | 1-D transforms, mkl_fft2, strides, the MKL library |
| plot.py | what the figures of a trial show and which files it writes (C154, C156) | drawing |
| dftidefs.py | | all (constants) |
