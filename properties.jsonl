{"id": "C01", "title": "pad_crop keeps every pixel at its offset from the FFT centre", "statement": "pad_crop(A, (r,c), v) accepts every pair of positive Python ints, returns an r-by-c array, and output pixel (i,j) equals the input pixel at the same offset from the centre pixel (size//2) when that pixel exists in A, and v otherwise; no slice ever wraps around or mismatches in shape.", "quantifier": "all input shapes, all output shapes, all pixel values, all fill values", "why_tests_cant": "Four size-parity combinations times crop/pad per axis times unbounded sizes; a test samples a handful of shapes.", "anchors": ["falco/util.py: pad_crop"]}
{"id": "C02", "title": "Chained pad_crop calls agree with one direct call", "statement": "pad_crop(pad_crop(A, m), n) equals pad_crop(A, n) for every A of a given shape exactly when, on each axis, no pixel that both A and the output can see is lost in between - that is, on each axis the intermediate size m is at least the smaller of the input size and n (in particular pad-then-crop back is the identity). The docstring's stronger claim - chaining in no particular order never changes the result - is therefore false precisely when the intermediate size is smaller than both.", "quantifier": "all arrays and all triples of positive sizes", "why_tests_cant": "The claim is about every triple of sizes and both parities on each axis.", "anchors": ["falco/util.py: pad_crop"]}
{"id": "C03", "title": "ceil_even / ceil_odd / nextpow2 return the least admissible integer", "statement": "ceil_even(x) is the smallest even integer >= x, ceil_odd(x) the smallest odd integer >= x, and 2**nextpow2(N) is the smallest integer power of two (negative exponents included) >= |N| for N != 0.", "quantifier": "all real x and all real N", "why_tests_cant": "A minimality claim over an uncountable domain.", "anchors": ["falco/util.py: ceil_even", "falco/util.py: ceil_odd", "falco/util.py: nextpow2"]}
{"id": "C04", "title": "create_axis is uniformly spaced and correctly centred", "statement": "create_axis(N, step, centering) has N entries spaced by exactly step; for 'pixel' centering (or odd N) the entry at index N//2 is 0; for 'interpixel' centering and even N, and for every odd N, reversing the axis negates it.", "quantifier": "all N >= 1, all step > 0, both centerings", "why_tests_cant": "Holds for every N; off-by-one half-pixel errors only show for one parity.", "anchors": ["falco/util.py: create_axis"]}
{"id": "C05", "title": "offcenter_crop returns the window centred on the requested pixel, zero outside", "statement": "offcenter_crop(A, r0, c0, nr, nc) returns an nr-by-nc array whose (i,j) entry is A[r0 - nr//2 + i, c0 - nc//2 + j] if that index lies inside A and 0 otherwise, for any integer centre including negative or out-of-range ones.", "quantifier": "all array shapes, all integer centres, all positive output sizes", "why_tests_cant": "The padding amounts are computed by separate branches for each edge; every combination of edge overlap must be right.", "anchors": ["falco/util.py: offcenter_crop", "falco/util.py: pad_crop"]}
{"id": "C06", "title": "bin_downsample averages disjoint bins and conserves the total", "statement": "bin_downsample(A, k) returns an (h//k)-by-(w//k) array for every array size and every k >= 1 without raising; entry (i,j) is the mean of the k-by-k block starting at (k*i, k*j); k^2 times the sum of the output equals the sum of A over its first k*(h//k) rows and k*(w//k) columns, hence the sum of A when both sizes are divisible by k. An input whose size is not divisible by k is not rejected: the trailing rows/columns are silently dropped (the exception object is built but never raised).", "quantifier": "all array shapes, all factors k >= 1", "why_tests_cant": "Conservation is a statement over all arrays and block counts.", "anchors": ["falco/util.py: bin_downsample"]}
{"id": "C07", "title": "relay re-images a pupil: twice is the identity, once is point inversion", "statement": "prop.relay(E, n, centering) equals the input for every even n, relays compose additively, and for odd n it moves the value at coordinate (x,y) to (-x,-y): on interpixel grids about the array centre, and on pixel-centred grids about the centre pixel when the size is even (the first row/column wraps onto itself). For odd-sized pixel-centred arrays the rolled flip is one pixel off: the output at (x,y) is the input at (1-x, 1-y) (wrapping), so relay is not the inversion about the centre pixel there.", "quantifier": "all square fields of every size, all relay counts, both centerings", "why_tests_cant": "Depends on parity of N, centering and n for all sizes.", "anchors": ["falco/prop.py: relay"]}
{"id": "C08", "title": "ptp propagation is additive in distance, reversible and energy-conserving", "statement": "prop.ptp over z1 followed by ptp over z2 equals ptp over z1+z2, ptp over dz then -dz returns the input field, ptp is linear in the field and preserves the summed intensity, for every grid on which it uses the transfer-function method.", "quantifier": "all fields, all grid sizes (even and odd), all wavelengths and distances with the transfer-function branch selected", "why_tests_cant": "Group law over a continuous parameter; numerical tests check a few distances to tolerance.", "anchors": ["falco/prop.py: ptp"]}
{"id": "C09", "title": "fft2d and ifft2d are mutually inverse", "statement": "prop.ifft2d(prop.fft2d(E)) = E and prop.fft2d(prop.ifft2d(E)) = E for every field E of a given shape if and only if each side of the array is even (or 1): fftshift is used on both sides where ifftshift is needed for odd sizes.", "quantifier": "all 2-D complex fields of every size", "why_tests_cant": "The failure depends on the parity of the size; the identity must hold for all fields.", "anchors": ["falco/prop.py: fft2d", "falco/prop.py: ifft2d"]}
{"id": "C10", "title": "mft_p2f followed by mft_f2p at critical sampling returns the inverted pupil", "statement": "For square pupil arrays with N*dx*dxi = wvl*fl, propagating pupil->focus->pupil with the matrix Fourier transforms returns the point-inverted input field, and both transforms are linear; the focal-plane axis of mft_f2p uses the horizontal step for the vertical axis, so the round trip is only guaranteed for deta = dxi.", "quantifier": "all complex fields, all N, dx, dxi, wvl, fl satisfying the sampling relation", "why_tests_cant": "An exact unitary identity for all sizes and all fields.", "anchors": ["falco/prop.py: mft_p2f", "falco/prop.py: mft_f2p"]}
{"id": "C11", "title": "enforce_constraints: exact outcome for dead, pinned, railed and tied actuators", "statement": "After enforce_constraints (hence after any DM surface generation), for every DM with Vmin <= Vmax, each actuator's command is that of the actuator it is tied to (the first entry of the last pair in which it is the second; itself if none), evaluated before ties, which is: Vmax if command (0 if dead) plus bias exceeds Vmax; else Vmin if it is below Vmin; else its last listed pinned value; else 0 if dead; else the unchanged command. The pinned list is extended by exactly the out-of-range actuators; nothing else changes. Consequences: with zero bias and pins inside the limits every command ends within limits; with a non-zero bias an over-range actuator's total voltage ends at Vmax + bias, i.e. outside the limits (shipped defaults: 1500 V for a 600 V command and 1000 V limit); an out-of-range incoming command overrides a user's pinned value.", "quantifier": "all DM sizes, voltages, bias maps, limits, dead maps, pinned lists and tied lists", "why_tests_cant": "Interaction of four constraint mechanisms over arbitrary index lists with duplicates.", "anchors": ["falco/dm.py: enforce_constraints", "falco/setup.py: falco_set_optional_variables"]}
{"id": "C12", "title": "Repeated model evaluations: when enforce_constraints is idempotent, and pin growth along every history", "statement": "Evaluating a model twice with the same commands: a second enforce_constraints leaves the DM unchanged if and only if, after the first, all totals (command + bias) are within limits and each actuator whose leader is neither dead nor pinned holds its leader's command; then any number of evaluations equals one. This holds with zero bias, pins within limits and no chained ties; it fails in general (e.g. shipped bias with a pinned 600 V actuator: the second evaluation jumps to Vmax). Along every history of command writes and evaluations the pinned list only grows and an actuator that once exceeded a limit can never again be moved by a command.", "quantifier": "all DM states, every number of repeated calls", "why_tests_cant": "A property of every call history.", "anchors": ["falco/dm.py: enforce_constraints", "falco/dm.py: gen_surf_from_act"]}
{"id": "C13", "title": "Surface quantisation error is bounded by the DAC step and is idempotent", "statement": "dm.discretize_surf returns heights that are integer multiples of HminStep; with 'round' the error is at most half a step, with floor/ceil/fix it is less than one step with the right sign, and re-applying the same method to the result changes nothing.", "quantifier": "all real surface heights, all positive step sizes, all four methods", "why_tests_cant": "A bound over all reals.", "anchors": ["falco/dm.py: discretize_surf"]}
{"id": "C14", "title": "Poke-cube and surface generation agree on actuator orientation", "statement": "For each of the eight dm.orientation values and every DM size, the physical actuator at which gen_poke_cube places command index k is the one at which gen_surf_from_act places V[k].", "quantifier": "all eight orientations, all Nact, all actuator indices", "why_tests_cant": "A permutation identity for every Nact.", "anchors": ["falco/dm.py: gen_surf_from_act", "falco/dm.py: gen_poke_cube"]}
{"id": "C15", "title": "Neighbour rule: detects every violation, corrects none; the intended correction conserves voltage", "statement": "apply_neighbor_rule, run on a map of at least 2x2 actuators, returns the map unchanged exactly when no pair of 8-neighbours differs by more than the limit and raises ValueError otherwise (the assignment of the corrected pair is malformed); for one actuator it raises IndexError. Every 8-neighbour pair is examined. The correction it intends preserves the sum of the pair, leaves all other actuators alone and brings the pair to exactly the limit, and the intended sweep conserves the total voltage, but even as intended one sweep does not establish the rule for all pairs.", "quantifier": "all DM sizes, all voltage maps, all limits", "why_tests_cant": "Order-dependent sweep over arbitrary maps.", "anchors": ["falco/dm.py: apply_neighbor_rule"]}
{"id": "C16", "title": "Surface from the poke cube is linear in the command", "statement": "gen_surf_from_poke_cube superposes actuators: the surface is additive and homogeneous in V, zero for V=0, and equals the explicit sum over actuators of V*gain*influence placed at its box, for any boxes inside the array (overlapping or not).", "quantifier": "all commands, gains, influence cubes, box locations within bounds", "why_tests_cant": "Linearity over all commands and overlap patterns.", "anchors": ["falco/dm.py: gen_surf_from_poke_cube", "falco/hlc.py: gen_fpm_surf_from_cube"]}
{"id": "C17", "title": "DM gain map is the derivative of the height curve at the current voltage", "statement": "update_gain_map sets VtoH at each actuator to the derivative, at total voltage V+biasMap, of the voltage-to-height curve selected by fitType (linear, quadratic or poly2, fourier2).", "quantifier": "all voltages, bias maps and fit coefficients", "why_tests_cant": "Derivative identity for all coefficients.", "anchors": ["falco/dm.py: update_gain_map"]}
{"id": "C18", "title": "Rotation matrices used for DM tilt are proper rotations in both orders", "statement": "The XYZ and ZYX matrices used in propcustom_dm, derotate_resize_surface, gen_poke_cube and diff_dm.make_rotation_matrix are orthogonal with determinant 1 for all angles, and the ZYX/XYZ closed forms equal the corresponding products of elementary rotations.", "quantifier": "all triples of real angles", "why_tests_cant": "Identity over three continuous parameters.", "anchors": ["falco/dm.py: propcustom_dm", "falco/dm.py: gen_poke_cube", "falco/diff_dm.py: make_rotation_matrix"]}
{"id": "C19", "title": "The EFC command is the unique minimiser of the regularised weighted cost", "statement": "For any Jacobians G_m, estimated fields E_m, non-negative mode weights and regularisation, the command computed by ctrl (with dmfac=1) satisfies the normal equations and is the unique real minimiser of sum_m w_m |E_m + G_m u|^2 + 10^reg * maxdiag * |u|^2, whenever maxdiag > 0.", "quantifier": "all numbers of pixels, actuators and modes, all complex Jacobians and fields, all regularisations", "why_tests_cant": "Optimality against every other command vector.", "anchors": ["falco/ctrl.py: wrapper", "falco/ctrl.py: _efc"]}
{"id": "C20", "title": "A scaled EFC step never increases the model-predicted cost", "statement": "With the gain dmfac in [0,2] the regularised model cost after the EFC command is at most the cost before it, it equals the old cost minus dmfac(2-dmfac) times the optimal decrease, and dmfac=1 is optimal along the step.", "quantifier": "all problem data and all dmfac in [0,2]", "why_tests_cant": "Inequality for all problem data.", "anchors": ["falco/ctrl.py: _efc"]}
{"id": "C21", "title": "Grid search applies the best of exactly the requested (regularisation, gain) pairs", "statement": "The grid-search controllers evaluate every pair from muVec x dmfacVec once, return a pair whose measured intensity is minimal among all evaluated ones, break ties by the first in (gain-outer, regularisation-inner) order, and return the commands belonging to that same pair.", "quantifier": "all lists of regularisations and gains, all intensity outcomes", "why_tests_cant": "All list lengths and tie patterns.", "anchors": ["falco/ctrl.py: _grid_search_efc", "falco/ctrl.py: _planned_efc", "falco/util.py: allcomb"]}
{"id": "C22", "title": "Trial commands of a grid search leave no trace exactly when none exceeds the limits", "statement": "After evaluating any sequence of trial commands in a grid search, each DM has the command it had before. The whole DM state is what it was exactly when no trial command went out of the voltage range; otherwise every actuator that went out of range stays in the pinned list and later real commands leave it at Vmin or Vmax.", "quantifier": "all histories of trial commands", "why_tests_cant": "Depends on the whole trial history.", "anchors": ["falco/ctrl.py: _efc", "falco/dm.py: enforce_constraints"]}
{"id": "C23", "title": "Control schedule expansion is exact", "statement": "efc_schedule_generator(matrix) produces one entry per correction iteration (total = sum of first column), assigns each iteration the regularisation and DM set of its own row, lists a relinearisation exactly at the iterations starting a row flagged for it (including zero-length rows), and a grid search at exactly the iterations flagged.", "quantifier": "all schedule matrices, any number of rows, any iteration counts including zero", "why_tests_cant": "Arbitrary row counts and zero-length rows.", "anchors": ["falco/ctrl.py: efc_schedule_generator"]}
{"id": "C24", "title": "Planned EFC resolves regularisation and gain correctly at every iteration", "statement": "For every scheduled regularisation code the planned controller uses: the scheduled real value when the imaginary part is zero; the most recent best value plus offset when it is imaginary; and the first iteration without a previous grid search and with imaginary code fails. The remembered best values change only at grid-search iterations.", "quantifier": "all schedules and all measurement outcomes", "why_tests_cant": "State carried across arbitrary iteration histories.", "anchors": ["falco/ctrl.py: _planned_efc"]}
{"id": "C25", "title": "Control vector packing and unpacking are inverse", "statement": "The command vector has one entry per controlled actuator of each DM in dm_ind, grouped by DM; ctrl.wrapup gives each actuator exactly its own entry times the DM weight, 0 to all uncontrolled actuators, and reading it back at act_ele returns the vector.", "quantifier": "all DM sets, all act_ele subsets, all command vectors", "why_tests_cant": "All subsets of actuators.", "anchors": ["falco/ctrl.py: init", "falco/ctrl.py: wrapup"]}
{"id": "C26", "title": "Weak-actuator culling keeps exactly the responsive actuators and their partners", "statement": "At a culling iteration the controlled set of each DM becomes, in increasing order and without duplicates, the column positions whose summed squared Jacobian response is at least 10^(relative threshold) of the strongest, plus tied partners. These are the right actuators (for every Jacobian) exactly when column k belongs to actuator k, i.e. nothing was culled before; after an earlier culling positions are taken for actuator numbers.", "quantifier": "all Jacobians, thresholds, tied lists, previously culled sets", "why_tests_cant": "Index bookkeeping across iterations for all subsets.", "anchors": ["falco/ctrl.py: cull_weak_actuators", "falco/model/models.py: jacobian", "falco/wfsc.py: loop"]}
{"id": "C27", "title": "Spatial weights are applied once per control iteration, cumulatively", "statement": "The spatial weights are multiplied into the stored Jacobian in place at every control iteration, so in the i-th iteration after a relinearisation (i = 0, 1, ...) the controller uses the computed Jacobian times the weights to the power i+1. This is a single application in every iteration exactly when every weight is 0 or 1 (or there is only one iteration).", "quantifier": "all relinearisation schedules and all weights", "why_tests_cant": "Aliasing over arbitrary iteration histories.", "anchors": ["falco/ctrl.py: apply_spatial_weighting_to_Jacobian", "falco/wfsc.py: loop"]}
{"id": "C28", "title": "AD-EFC: reported gradient is the gradient of the reported cost", "statement": "At the command the estimate belongs to, for systems without apodizer and with vortex, Lyot-type or FLC masks (square focal sampling, even arrays), the surface gradients behind the returned gradient are the derivatives of the reported data cost with respect to both DM surfaces in every direction (DM1: without a stop at DM2; with a stop and coincident DMs the derivative is the returned one times the stop). For an HLC with outer transmission c the derivative is c times the returned one; away from the stored command the returned gradient can be non-zero where the cost is stationary; with a command penalty the pair is consistent for coefficient 0 only, the code adding 2*c*gradient instead of 2*c*u.", "quantifier": "all command vectors, penalty coefficients and data-term gradients", "why_tests_cant": "Analytic identity over all inputs.", "anchors": ["falco/model/models.py: compact_reverse_gradient"]}
{"id": "C29", "title": "AD-EFC bounds keep every commanded actuator within the DM limits", "statement": "Each bound handed to the optimiser keeps the commanded voltage within Vmin..Vmax for every delta command inside the bounds exactly when the DM's weight is 1, or it is smaller than 1 and the present command is in range; the bounds contain 0 when the present command is in range.", "quantifier": "all DM states and all delta commands within the bounds", "why_tests_cant": "For all vectors in a box.", "anchors": ["falco/ctrl.py: _ad_efc"]}
{"id": "C30", "title": "Serial and parallel Jacobians agree exactly for a complete actuator set of a DM in dm_ind", "statement": "For a DM in dm_ind with no actuator culled (act_ele = 0..N-1), models.jacobian returns the same matrix in serial and in parallel. In all other cases they differ: after culling the parallel branch raises IndexError where the serial one succeeds, and for a DM outside dm_ind the serial matrix is zero while the parallel one holds the responses.", "quantifier": "all act_ele subsets, numbers of modes, thread completion orders", "why_tests_cant": "All subsets and all completion orders.", "anchors": ["falco/model/models.py: jacobian"]}
{"id": "C31", "title": "Tied columns of the Jacobian are merged without losing response", "statement": "For tied pairs between controlled actuators (in any number, also overlapping), apply_ties_to_jac yields a Jacobian whose response to every command is the response of the untied Jacobian to the command with followers set to their leaders; for disjoint pairs the leader's column is the sum and the follower's zero. A pair with an uncontrolled follower raises ValueError; with an uncontrolled leader the follower's response is deleted.", "quantifier": "all Jacobians, all commands, all lists of disjoint ties whose members are controlled", "why_tests_cant": "All tie lists and commands.", "anchors": ["falco/model/models.py: apply_ties_to_jac", "falco/dm.py: enforce_constraints"]}
{"id": "C32", "title": "The control Jacobian is the derivative of the compact model", "statement": "For Lyot-type coronagraphs (LC, APLC, HLC, FLC, SPLC), with or without an apodizer no larger than the DM array, and even array sizes: the Jacobian column of a live actuator of DM1 or DM2 is the control weight times the derivative of the compact-model field of the same (star, wavelength) mode with respect to that actuator's voltage at the current command - for any propagation distances when the influence function is given on the whole DM array, and for every influence box inside the array when both DMs are conjugate to the pupil. With pixel-centred arrays and an odd number of relays the box (or the apodizer) must keep light off the first row and column. A dead actuator's column is zero. The identity fails in these cases: for a Zernike mode other than piston the Jacobian omits the factor i used by the compact model, so i times the column is the weighted derivative; off the central wavelength the FPM sampling differs from the compact model's for an HLC in the PROPER layouts and for other coronagraphs in layout 'fpm_scale'; with DM surface-error maps both functions raise TypeError.", "quantifier": "all optical systems of these kinds, DM surfaces, influence functions, boxes, apodizers, input fields, wavelengths", "why_tests_cant": "Derivative identity for all optical systems.", "anchors": ["falco/model/jacobians.py: precomp, lyot", "falco/model/models.py: compact, compact_general"]}
{"id": "C33", "title": "Pairwise probing recovers the field exactly for ideal probes", "statement": "If the probe images are those of a field E with probe perturbations +-p_k added (linear, noise-free), at least two probes at a pixel are non-collinear and the probe amplitudes used are exact, then the pixel estimate equals E and the incoherent estimate is zero for purely coherent light.", "quantifier": "all complex fields, all probe fields with two non-collinear members, any number of probe pairs", "why_tests_cant": "Exact algebraic recovery for all values.", "anchors": ["falco/est.py: pairwise_probing"]}
{"id": "C34", "title": "Positive and negative probes of a pair are exact negatives", "statement": "For every probe pair the commanded negative-probe shape is minus the positive-probe shape, for every probe phase including the special-cased zero phase, every axis and every size.", "quantifier": "all phases, offsets, sizes, actuator coordinates", "why_tests_cant": "Trigonometric identity over continuous parameters with special-case branch.", "anchors": ["falco/est.py: gen_pairwise_probe_square, gen_pairwise_probe, pairwise_probing"]}
{"id": "C35", "title": "Probing leaves the DM commands as they were", "statement": "After pairwise_probing returns, every DM in dm_ind and the probing DM have the command they had before; the other DM (neither controlled nor probing) is left at zero.", "quantifier": "all dm_ind sets, all starting commands, any number of probes", "why_tests_cant": "State restoration for every configuration.", "anchors": ["falco/est.py: pairwise_probing"]}
{"id": "C36", "title": "Estimated intensity never exceeds the threshold and intensities decompose", "statement": "After pairwise_probing each estimated pixel has |E|^2 <= the intensity threshold, measured total = coherent + incoherent estimate at every pixel, and pixels with fewer than two good probe pairs are estimated as 0.", "quantifier": "all images, all probe measurements", "why_tests_cant": "Pixelwise invariant for all measurements.", "anchors": ["falco/est.py: pairwise_probing"]}
{"id": "C37", "title": "Perfect estimator: serial and parallel results coincide", "statement": "est.perfect returns the same field in serial and parallel: for each mode the weighted sum of the full-model fields over the wavelengths of its sub-band; the image is, in parallel, the sum over stars of the images, and in serial the last star's image, so the images agree exactly when the other stars' images sum to zero (in particular for one star).", "quantifier": "all star counts, mode counts, images", "why_tests_cant": "All star counts.", "anchors": ["falco/est.py: perfect"]}
{"id": "C38", "title": "Spectral weights are normalised and symmetric", "statement": "Subband weights sum to 1 with end bands weighted half; the wavelength weights in a subband sum to 1; the weights of the unique full-model wavelengths also sum to 1 as long as distinct wavelengths are separated by more than the matching window.", "quantifier": "all numbers of subbands and wavelengths per subband, all bandwidths", "why_tests_cant": "All counts and bandwidths.", "anchors": ["falco/setup.py: falco_set_spectral_properties"]}
{"id": "C39", "title": "Jacobian modes enumerate subband x Zernike x star exactly once with normalised weights", "statement": "falco_set_jacobian_modal_weights, for Zernikes listed with piston first in the order Python's set iterates them, lists every (star, subband, active Zernike) mode exactly once - all sub-bands for piston, first, middle and last for the others - and the weights per star and Zernike sum to 1; the piston weights are equal, except that with the perfect estimator (and several sub-bands) the two end sub-bands weigh half. Repeated Zernikes or a missing piston are rejected with ValueError; so are distinct Zernikes whose set order differs from the listed order; with piston listed last no piston mode is created.", "quantifier": "all numbers of stars, subbands, Zernikes and coefficients", "why_tests_cant": "All counts and zero-coefficient patterns.", "anchors": ["falco/setup.py: falco_set_jacobian_modal_weights"]}
{"id": "C40", "title": "Lyot-stop cropping loses transmitting pixels only in the outermost ring", "statement": "The cropped Lyot stop contains every pixel of transmission above 1e-7 of the original mask (and is the smallest such crop) whenever the outermost ring of the mask is opaque; the outermost ring is always cut off, so transmitting pixels there are lost; a completely opaque mask raises TypeError.", "quantifier": "all masks of all even sizes", "why_tests_cant": "All masks.", "anchors": ["falco/setup.py: falco_set_initial_apertures / crop_lyot_stop"]}
{"id": "C41", "title": "Dark-hole region is the union of the requested zones", "statement": "The correction region contains a pixel iff it is inside at least one requested zone, with that zone's own offsets, for zones inside their outer radius (a rotated square or rectangle can lose its corners). Side keywords mean what they say: right opens along +x, left along -x, top along +y (increasing rows), bottom along -y, and the two-sided ones along both; exactly the documented spellings are accepted and any other raises ValueError. The scoring region is the union of the scoring zones when no vertical offsets are given or they equal the horizontal ones; when vertical offsets are given the configuration replaces them by the horizontal ones (permanently) and the scoring zones use those, and vertical offsets without horizontal ones always fail.", "quantifier": "all numbers and shapes of zones", "why_tests_cant": "All zone lists.", "anchors": ["falco/setup.py: falco_configure_dark_hole_region", "falco/mask.py: falco_gen_SW_mask"]}
{"id": "C42", "title": "Angular-spectrum padding is sufficient at the shortest wavelength", "statement": "The padded DM array size of falco_set_dm_surface_padding is a power of two, at least twice each DM's surface array, and the smallest doubling meeting N >= wvl*|d|/dx^2 at the shortest wavelength (compact model: if its sampling is not finer than the full model's); longer wavelengths, and a finer compact sampling, can be undersampled.", "quantifier": "all distances, samplings, wavelengths", "why_tests_cant": "Inequality over all parameters; loop termination.", "anchors": ["falco/setup.py: falco_set_dm_surface_padding", "falco/prop.py: ptp"]}
{"id": "C43", "title": "Spatial control weights are the product of the ring weights inside the dark hole", "statement": "The weight map is 0 outside the dark hole and inside it equals the product over rings containing the pixel of sqrt(ring weight), multiplied by the star weight.", "quantifier": "all ring lists (overlapping or not), all pixels", "why_tests_cant": "All ring lists.", "anchors": ["falco/setup.py: falco_set_spatial_weights"]}
{"id": "C44", "title": "Summed image: serial and parallel evaluation agree", "statement": "imaging.get_summed_image gives the same image in serial and parallel for one star, without noise, race-free components and equal light at equal wavelengths, for every number of threads and schedule; with several stars the parallel image is the first star's only, with noise the parallel image is noiseless, and with per-subband inputs a wavelength shared by two sub-bands is evaluated only in the first.", "quantifier": "all star counts, polarisation counts, subband weights", "why_tests_cant": "All configurations.", "anchors": ["falco/imaging.py: get_summed_image"]}
{"id": "C45", "title": "Parallel image evaluation is independent of thread interleaving", "statement": "For every number of worker threads, interleaving and previous state, parallel image evaluation returns the image of the sequential evaluation if the components cannot disturb each other (one polarisation state for polarisation-reading layouts, one mask for Fourier-type HLCs) and always with one thread; otherwise some schedules with two threads evaluate a combination with the wrong polarisation or mask. No schedule gets stuck.", "quantifier": "all interleavings of any number of workers", "why_tests_cant": "All schedules.", "anchors": ["falco/imaging.py: get_summed_image, falco_get_single_sim_full_image"]}
{"id": "C46", "title": "Loop histories have one entry per iteration boundary", "statement": "With at least one iteration, at most one Jacobian mode per sub-band and star, and no workspace saving, wfsc.loop never indexes out of range and its histories have one entry per boundary: command k is the one before correction k (the last: after the final correction), intensities, throughput and regularisation k are those of iteration k, and the last measured intensity is that of the final command unless the controller is model-based, where it stays 0. Zernike modes raise IndexError in the first iteration, workspace saving UnboundLocalError after the last, Nitr = 0 ValueError before the first.", "quantifier": "all Nitr, all controllers", "why_tests_cant": "All iteration counts.", "anchors": ["falco/wfsc.py: loop", "falco/setup.py: falco_init_storage_arrays"]}
{"id": "C47", "title": "Reporting intensities scales the stored incoherent estimate by the subband weight and changes nothing else", "statement": "Storing the history leaves the E-field estimate unchanged and reports the weighted sums over modes; the incoherent estimate is left unchanged exactly for modes with sub-band weight 1 or zero estimate: it is weighted in place, once per report, so the estimator's incoherent field is scaled by the subband weight.", "quantifier": "all estimates and weights", "why_tests_cant": "Aliasing for all inputs.", "anchors": ["falco/wfsc.py: store_intensities"]}
{"id": "C48", "title": "Lazy configuration values: cycles are reported, others evaluate to a fixed value", "statement": "Reading a lazily evaluated configuration attribute returns the value of its expression given the values of the attributes it depends on, raises ValueError exactly when its evaluation reaches itself, and after a raised error later reads behave as if the failed read never happened.", "quantifier": "all dependency graphs, all read orders", "why_tests_cant": "All graphs and read histories.", "anchors": ["falco/config/Eval.py: Eval", "falco/config/Object.py: Object"]}
{"id": "C49", "title": "Constructor keyword arguments override defaults at every nesting level and nothing else", "statement": "For Object(**kwargs): each plain leaf present in kwargs has the given value, every default leaf on which kwargs are silent keeps its value, and every leaf comes from one of the two. Lists given for list defaults are concatenated instead, nested objects (yaml mappings) replace the defaults wholesale, and the caller's nested dictionaries gain the default keys.", "quantifier": "all nested dictionaries", "why_tests_cant": "All tree shapes.", "anchors": ["falco/config/Object.py: Object", "falco/config/ModelParameters.py"]}
{"id": "C50", "title": "Validators accept exactly their documented set and return the argument unchanged", "statement": "For each scalar validator in check.py the call returns its argument exactly when the documented condition holds - extended by booleans as integers and NaN in positivity checks - and raises the supplied exception otherwise; array validators accept exactly the documented shapes (content is not checked) and return the converted array; a bad name or exception class raises CheckException, a bytes name turns a rejection into TypeError.", "quantifier": "all Python scalars (by type and value)", "why_tests_cant": "All values of all types.", "anchors": ["falco/check.py"]}
{"id": "C51", "title": "HLC thickness lookup is always in range and nearest", "statement": "discretize_fpm_surf returns an index within the table for every surface height, and the table thickness at that index is within half a step of the height clipped to the table range.", "quantifier": "all heights, all uniform thickness tables", "why_tests_cant": "All reals.", "anchors": ["falco/hlc.py: discretize_fpm_surf"]}
{"id": "C52", "title": "HLC full-model table lookup is one sub-band off", "statement": "gen_fpm_from_LUT with (subband si, wavelength wi) reads the table slice of that wavelength with a single sub-band; with several sub-bands and wavelengths it does exactly when si = Nwpsbp, and with one wavelength per sub-band never (it reads the previous sub-band's, cyclically).", "quantifier": "all si, wi, Nwpsbp", "why_tests_cant": "All index pairs.", "anchors": ["falco/hlc.py: gen_fpm_from_LUT"]}
{"id": "C53", "title": "Hexagonal mirror has 3n(n+1)+1 segments and support/field enumerate them consistently", "statement": "count_segments(n) = 3n(n+1)+1 for every n; both drawing functions visit exactly the points of the hexagonal lattice within n rings, once each. get_support draws the segments marked 1 and raises IndexError exactly when the list is too short; get_field draws exactly the segments get_support leaves out (marked 0), by default none.", "quantifier": "all n", "why_tests_cant": "All ring counts.", "anchors": ["falco/hexsegmirror.py: count_segments, get_support"]}
{"id": "C54", "title": "Noll ordering: index <-> (n,m,parity) is a bijection", "statement": "prop_noll_zernikes enumerates radial orders so that index j has the radial order n with n(n+1)/2 < j <= (n+1)(n+2)/2, each (n,m,cos/sin) with n-m even appears exactly once, with cos for even and sin for odd indices. The text written for an index (COMPACT, before the cut at 250 characters), read by the usual precedence of the arithmetic operators, evaluates to the Zernike polynomial.", "quantifier": "all Zernike indices", "why_tests_cant": "All indices.", "anchors": ["falco/proper/prop_noll_zernikes.py"]}
{"id": "C55", "title": "Thin-film solver conserves energy", "statement": "For every passive layer stack the solver's reflected plus transmitted power is at most 1, exactly 1 if no layer absorbs, and every entry of the complex transmission and reflection tables built from it carries at most the incident power.", "quantifier": "all numbers of layers, refractive indices n - ik, thicknesses, wavelengths, angles below grazing (no layer totally reflecting), both polarisations and their mean", "why_tests_cant": "Induction on layer count and analysis over all complex indices.", "anchors": ["falco/thinfilm.py: solver", "falco/thinfilm.py: calc_complex_trans_matrix"]}
{"id": "C56", "title": "PROPER propagation never reaches the 'reference surface not planar' error and tracks position", "statement": "For every sequence of prop_lens and prop_propagate calls after prop_begin, the planar propagator is only applied to a planar reference surface, and the beam position after prop_propagate(dz) is the old position plus dz (up to the 1e-12 m no-op tolerance).", "quantifier": "all sequences of operations", "why_tests_cant": "All call histories.", "anchors": ["falco/proper/prop_propagate.py", "falco/proper/prop_select_propagator.py", "falco/proper/prop_lens.py", "falco/proper/prop_ptp.py", "falco/proper/prop_stw.py", "falco/proper/prop_wts.py"]}
{"id": "C57", "title": "PROPER save states: what is saved, and that nothing is ever restored or deleted", "statement": "prop_state's first call at a wavelength writes the wavefront to that wavelength's file and later calls leave the file alone; but (contrary to the docstrings) a later call never gives the caller the saved wavefront: with the pinned NumPy it raises ValueError and leaves proper.n at 0, with any NumPy the caller's object is unchanged; wavelengths equal to a femtometre share one file; prop_end_savestate after prop_init_savestate deletes no state file, and without prop_init_savestate it deletes every visible file of the working directory.", "quantifier": "all histories of save/restore calls, all directories", "why_tests_cant": "All histories.", "anchors": ["falco/proper/prop_state.py", "falco/proper/prop_savestate.py", "falco/proper/prop_end_savestate.py", "falco/proper/prop_init_savestate.py", "falco/proper/__init__.py"]}
{"id": "C58", "title": "prop_shift_center is an involution and puts the origin at the centre", "statement": "prop_shift_center moves pixel (0,0) to (n//2,m//2); applying it twice returns the image for even dimensions (not for odd ones).", "quantifier": "all image sizes", "why_tests_cant": "Parity dependent for all sizes.", "anchors": ["falco/proper/prop_shift_center.py"]}
{"id": "C59", "title": "DM fit reproduces the requested surface", "statement": "Commands found by solving the prefilter system render, for every surface, exactly the requested surface at actuator resolution when the influence function is point-symmetric; in general the matrix used is the transpose of the rendering operator, and on a DM larger than the kernel radius the two coincide exactly for point-symmetric kernels.", "quantifier": "all DM sizes, influence functions and surfaces", "why_tests_cant": "All sizes and kernels.", "anchors": ["falco/dm.py: build_prefilter", "falco/dm.py: fit_surf_with_dm_lsq"]}
{"id": "C60", "title": "Influence-function stamps always lie inside the padded DM array", "statement": "For every actuator position, pixel density and stamp size, the index box of each influence function (and its enlarged version for angular-spectrum propagation in the Jacobian) is inside the NdmPad array, so surface superposition never wraps or raises.", "quantifier": "all actuator coordinates, box sizes, pixels per actuator", "why_tests_cant": "Rounding interacts with all real positions.", "anchors": ["falco/dm.py: gen_poke_cube", "falco/dm.py: gen_surf_from_poke_cube", "falco/model/jacobians.py: lyot"]}
{"id": "C61", "title": "Influence-function cropping terminates and loses at most 1e-7", "statement": "The loop in gen_poke_cube that crops zero padding from the influence function stops, and the cropped function differs in total by at most 1e-7. Fails (infinite loop) for an influence function whose total is at most 1e-7.", "quantifier": "all influence functions", "why_tests_cant": "Termination over all arrays.", "anchors": ["falco/dm.py: gen_poke_cube"]}
{"id": "C62", "title": "Vortex propagation: meaning and adjoint", "statement": "For mft_p2v2p, the inner product of Q with the forward propagation of P equals the inner product of the reverse-gradient propagation of Q with P, which is what algorithmic differentiation of the EFC cost needs. The forward propagation is the sum of two midpoint-rule evaluations of the same focal-plane integral, on a coarse grid of spacing 1/lambdaOverD and a fine one of spacing 2*outVal/NB, weighted by the mask times one minus the first window and times the second window; without a phase mask, when the two grids coincide and span a whole number of samples, it returns the pupil turned by half a turn, whatever the window.", "quantifier": "all complex fields P, Q, array sizes, samplings, vortex masks and windows", "why_tests_cant": "An identity over all complex fields.", "anchors": ["falco/prop.py: mft_p2v2p"]}
{"id": "C63", "title": "Serial and parallel grid search give the same result", "statement": "_grid_search_efc returns the same best pair, intensity, commands and DM state with flagParallel True and False if and only if no trial command exceeds the actuator limits: the parallel branch gives each trial its own copy of the model, the serial branch carries actuators pinned by one trial into the next, which can change the pair chosen.", "quantifier": "all grids, commands and image functions", "why_tests_cant": "Equality of two evaluation strategies over all grids and all reachable DM states.", "anchors": ["falco/ctrl.py: _grid_search_efc", "falco/ctrl.py: _efc"]}
{"id": "C64", "title": "The DM surface fit terminates and is never worse than the raw surface", "statement": "prop_fit_dm always returns, after a number of refinement rounds bounded independently of its input; the command returned is never worse (rms) than taking the desired surface as command; the surface returned with the command is the surface that command makes whenever the last round did not diverge, and otherwise it is the surface of the (rejected) last command. For a kernel symmetric in rows and columns with |1 - centre| plus the absolute values of the other entries at most 0.99, the fit ends with the surface asked for at every actuator to better than 1e-15, for every surface and size of DM.", "quantifier": "every desired surface, influence kernel and tolerance", "why_tests_cant": "the number of rounds depends on real-valued residuals; tests only try convergent cases", "anchors": ["falco/dm.py:fit_surf_to_act", "falco/proper/prop_fit_dm.py:prop_fit_dm"]}
{"id": "C65", "title": "Probing leaves no trace on later evaluations", "statement": "After pairwise probing has run and restored the command of a DM, its constraint record, and so every later image at that command, is what it would have been without probing if every probed command stays within the voltage limits; a probe that drives an actuator over a limit pins it permanently, also at the restored command.", "quantifier": "every probe, command, DM with limits, image and field function", "why_tests_cant": "requires the whole history of hidden DM state across all evaluations of the probing loop", "anchors": ["falco/est.py:pairwise_probing", "falco/dm.py:gen_surf_from_act", "falco/dm.py:enforce_constraints"]}
{"id": "C66", "title": "Scheduled probe parameters are applied per iteration", "statement": "If a schedule of probe offsets, rotations or intensities of sufficient length is given, the estimator uses the entry of the current iteration; without a schedule the fixed values are used. (The first clause fails: any schedule raises TypeError.)", "quantifier": "every schedule, iteration count and iteration", "why_tests_cant": "a test of one schedule would find the failure but not that no schedule works", "anchors": ["falco/est.py:pairwise_probing"]}
{"id": "C67", "title": "Jacobian-based and model-based probe estimation agree", "statement": "With ideal probes the estimator that predicts probe fields from the control Jacobian returns the true field, as the one that uses the model does. (Fails: for other than two pairs it raises, for two pairs it solves the transposed system.)", "quantifier": "every field, number of pairs and set of probe fields", "why_tests_cant": "the transposed system is right for symmetric probe matrices, so a sample can pass", "anchors": ["falco/est.py:pairwise_probing"]}
{"id": "C68", "title": "Field and index syntax of configuration objects agree; reading has no effect", "statement": "For a configuration object, o.x and o['x'] name the same entry, and index reads change nothing, after construction and any history of index writes and index reads of names other than 'data'. A field assignment is not seen by item access and permanently hides later item assignments from field access; reading item 'data' empties the object.", "quantifier": "every object, key, value and history of reads and writes", "why_tests_cant": "quantifies over all keys and access histories", "anchors": ["falco/config/Object.py"]}
{"id": "C69", "title": "The full model of an HLC uses the mask slice of its own wavelength", "statement": "The full model of an HLC takes the occulter slice of its own wavelength in the single-subband case, and with several sub-bands and wavelengths exactly when Nsbp+1 = 2 Nwpsbp, the index error being the same for all wavelengths.", "quantifier": "all numbers of sub-bandpasses and wavelengths per sub-bandpass, all wavelengths", "why_tests_cant": "indexing over every pair of sizes; the sizes used in tests are special", "anchors": ["falco/model/models.py: full", "falco/thinfilm.py: gen_complex_trans_table"]}
{"id": "C70", "title": "Thin-film solver: zero-thickness layers have no effect; one interface gives Fresnel's coefficients", "statement": "Adding a layer of zero thickness, whatever its index, changes none of the solver's results; so table entries without metal do not depend on the constants of the metals. With a single interface at normal incidence the amplitudes are (n0-n1)/(n0+n1) and 2 sqrt(n0 n1)/(n0+n1).", "quantifier": "all passive stacks and positions of the layer", "why_tests_cant": "All stacks; relates two runs of the solver.", "anchors": ["falco/thinfilm.py: solver", "falco/thinfilm.py: calc_complex_trans_matrix"]}
{"id": "C71", "title": "Mean over polarisations agrees with each polarisation at normal incidence", "statement": "At normal incidence polarisation makes no difference, so the table for pol=2 (mean) equals those for pol=0 and pol=1. (Holds for transmission and for powers; fails for reflection: the two reflection amplitudes are opposite for every stack, so the mean reflection table is zero.)", "quantifier": "all passive stacks with transparent substrate", "why_tests_cant": "A cancellation for all stacks.", "anchors": ["falco/thinfilm.py: calc_complex_trans_matrix", "falco/thinfilm.py: solver"]}
{"id": "C72", "title": "PROPER prescriptions conserve total intensity", "statement": "For every sequence of prop_lens, prop_propagate (with or without TO_PLANE) and prop_add_phase calls, from prop_begin or from any field in a state such calls reach, the sum of the squared moduli of the wavefront array after the calls equals the sum before.", "quantifier": "all grids, fields and sequences of calls", "why_tests_cant": "All call histories through the four combinations of propagators, for every field.", "anchors": ["falco/proper/prop_propagate.py", "falco/proper/prop_ptp.py", "falco/proper/prop_stw.py", "falco/proper/prop_wts.py", "falco/proper/prop_lens.py", "falco/proper/prop_add_phase.py"]}
{"id": "C73", "title": "prop_lens obeys the thin-lens law for the pilot beam", "statement": "For every pilot beam and every non-zero focal length, prop_lens leaves the position unchanged and changes the complex beam parameter q = (z - z_waist) + i z_Rayleigh by 1/q' = 1/q - 1/f; prop_propagate leaves waist position, waist size and Rayleigh distance alone.", "quantifier": "all pilot beams, focal lengths and distances", "why_tests_cant": "Continuous family of beams through five branches of the code.", "anchors": ["falco/proper/prop_lens.py", "falco/proper/prop_propagate.py"]}
{"id": "C74", "title": "prop_lens adds the lens phase relative to the two reference surfaces, and raises only after TO_PLANE", "statement": "On arrays of even size, whenever prop_lens returns, the sample p, q pixels from the axis is multiplied by exp(-i pi r^2 / lambda * (1/f - 1/R_old + 1/R_new)), r^2 = (p dx)^2 + (q dx)^2, where a reference curvature term is present exactly when that reference surface is spherical. On arrays of odd size the lens is decentred by one pixel on both axes (violated). It raises (ZeroDivisionError) exactly when the beam is marked outside the Rayleigh range while the surface is planar and the new beam is inside; that state is reached by prop_propagate(TO_PLANE) followed by a lens, so such a prescription fails. Without TO_PLANE no lens raises.", "quantifier": "all states reachable by prescriptions, all focal lengths", "why_tests_cant": "All histories; the failing branch needs a particular order of calls.", "anchors": ["falco/proper/prop_lens.py", "falco/proper/prop_propagate.py"]}
{"id": "C75", "title": "PROPER propagation is reversible", "statement": "In every state reached without TO_PLANE, prop_propagate(dz) followed by prop_propagate(-dz) restores field, sampling, position, reference surface and beam exactly, through all four propagator combinations (for distances that are zero or at least the 1e-12 m tolerance).", "quantifier": "all states, distances and fields", "why_tests_cant": "Four propagator combinations with quadratic phases that must cancel for all fields.", "anchors": ["falco/proper/prop_propagate.py", "falco/proper/prop_ptp.py", "falco/proper/prop_stw.py", "falco/proper/prop_wts.py", "falco/proper/prop_qphase.py"]}
{"id": "C76", "title": "The PROPER plane-to-plane propagator is falco.prop.ptp on even grids only", "statement": "On every even grid prop_ptp (after centring the array) equals falco.prop.ptp for the same wavelength, width and distance, for every field. On odd grids of at least 3 points it does not: the frequency array is one bin off and a uniform wave is multiplied by exp(-2 pi i lambda dz / (n dx)^2), where falco.prop.ptp leaves it unchanged.", "quantifier": "all grid sizes, fields, wavelengths and distances", "why_tests_cant": "Equality of two implementations for all fields; parity of the grid decides.", "anchors": ["falco/proper/prop_ptp.py", "falco/prop.py: ptp", "falco/util.py: angular_spectrum_transfer_function"]}
{"id": "C77", "title": "prop_define_entrance and prop_end normalise: the final image sums to one", "statement": "After prop_define_entrance, for every entrance field that is not identically zero and every prescription of lenses, propagations and phase errors, prop_end returns a non-negative image that sums to 1, with the sample stored at offset (p, q) from array index (0,0) at pixel (n//2+p, n//2+q), with and without NOABS. With the EXTRACT keyword prop_end raises TypeError for every input (float slice bounds).", "quantifier": "all entrance fields and prescriptions", "why_tests_cant": "All fields and call histories.", "anchors": ["falco/proper/prop_define_entrance.py", "falco/proper/prop_end.py"]}
{"id": "C78", "title": "The Zernike polynomials of prop_noll_zernikes are orthonormal on the unit disk", "statement": "For all indices i, j the average over the unit disk of Z_i Z_j, with the formulas prop_noll_zernikes composes (before the cut at 250 bytes of C127), is 1 if i = j and 0 otherwise; each radial polynomial is 1 at the edge of the aperture.", "quantifier": "all pairs of Noll indices", "why_tests_cant": "Infinitely many pairs; needs the algebra of the coefficients.", "anchors": ["falco/proper/prop_noll_zernikes.py"]}
{"id": "C79", "title": "pad_to_even_square embeds the array in an even square of the ceil-even of its larger side", "statement": "pad_to_even_square(A) is always defined for a 2-D array with positive sides; it returns a square array whose side is the smallest even integer not below either side of A, keeps every pixel of A at its offset from the FFT centre pixel and fills the rest with 0.", "quantifier": "all array shapes and values", "why_tests_cant": "Four parity combinations times unbounded sizes.", "anchors": ["falco/util.py: pad_to_even_square"]}
{"id": "C80", "title": "allcomb enumerates the Cartesian product exactly once, last vector fastest", "statement": "allcomb(v1,...,vk) lists exactly the tuples (x1,...,xk) with xi in vi; the number of rows is the product of the vector lengths; rows are ordered with the last vector varying fastest, and no row repeats when no vector has repeated entries.", "quantifier": "all numbers of vectors, all vectors", "why_tests_cant": "Ranges over all list lengths and arities.", "anchors": ["falco/util.py: allcomb"]}
{"id": "C81", "title": "The vortex Jacobian is the derivative of the FFT vortex model", "statement": "For a vortex coronagraph, with or without an apodizer of any size, any relay counts and either centering, and a Lyot array no larger than the FFT: the Jacobian column of a live DM2 actuator is the control weight times the derivative, with respect to that actuator's voltage, of the compact model whose vortex is propagated by one FFT instead of the multi-resolution transform. For DM1 the same holds with the Lyot-plane sampling replaced by the DM-plane sampling in the transform to the camera; so the DM1 column is right when the two samplings agree, and when they differ it is wrong (on a one-pixel on-axis camera by exactly the ratio of the samplings). Boxes as in C32.", "quantifier": "all vortex systems, DM surfaces, influence functions, boxes, apodizers, masks, FFT sizes, input fields", "why_tests_cant": "Derivative identity for all optical systems; tests compare a few actuators numerically for one configuration.", "anchors": ["falco/model/jacobians.py: vortex, precomp", "falco/model/models.py: compact_general"]}
{"id": "C82", "title": "With minimizeNI the Jacobian is the derivative of the normalised field", "statement": "With mp.jac.minimizeNI = True, pixel-centred arrays and an on-axis star: mp.jac's peak term (no_fpm) is the derivative of the unocculted on-axis field with respect to an actuator's voltage, up to the transmission of the mask outside the spot, and the Jacobian column of a Lyot-type coronagraph is the control weight times the derivative of (coronagraphic field / unocculted field at its brightest pixel), provided the on-axis pixel is the only brightest pixel before the poke and the mask transmits 1 outside the spot. For an HLC whose mask does not transmit 1 outside the spot the peak term is off by exactly that factor.", "quantifier": "every system, apodizer, pair of DM surfaces, influence function, box and wavelength; both DMs; any choice of brightest pixel made by argmax for each poke", "why_tests_cant": "A finite-difference test checks one configuration to finite accuracy and cannot see that the argmax pixel never moves for small pokes or that the outer transmission is dropped.", "anchors": ["falco/model/jacobians.py: no_fpm, lyot, precomp", "falco/model/models.py: compact_general"]}
{"id": "C83", "title": "Probe commands make the requested probe shape at the requested place", "statement": "gen_pairwise_probe and gen_pairwise_probe_square command, for every actuator with a non-zero gain, the probe gain times the fitted probe surface, whose value at an actuator is the analytic shape (sinc x sinc x cosine; sinc x sinc for phase exactly 0) at that actuator's position measured from the probe centre (offset rounded to whole actuators, ties to even) and rigidly rotated by the requested angle (angles up to 10 eps degrees count as zero). The rectangular generator raises ValueError exactly when the probed region is centred on the star; the square one rejects exactly non-positive intensities and axes other than x, y.", "quantifier": "all DM sizes, offsets, rotations, widths, gains, intensities, phases, axes, surface fits and actuators", "why_tests_cant": "Tests check a few probes on one DM; the polar-coordinate rotation and rounding must be right for every angle and offset.", "anchors": ["falco/est.py: gen_pairwise_probe, gen_pairwise_probe_square", "falco/dm.py: fit_surf_to_act"]}
{"id": "C84", "title": "Back-propagation through the differentiable DM is the adjoint of rendering", "statement": "For a DM without tilt whose influence-function array has an even size (FALCO's does when the influence function has an even number of pixels per actuator), DM.render_backprop is the exact adjoint of DM.render when no resampling is needed: sum(render(a)*g) = sum(a*render_backprop(g)) for every command a, image g, influence function, shift, output size and setting of wfe, so gradients of any cost of the surface are exact. With resampling by an exact factor the identity holds whenever, at each frequency only one of the two samplings resolves, the surface or the image has no content; without that condition it fails for every pair of different array sizes, and on odd arrays it fails even without resampling.", "quantifier": "All DMs without tilt, commands, images, output sizes, resampling factors", "why_tests_cant": "Quantifies over all influence functions, commands, images and array sizes (or over all histories of calls); a test runs one DM.", "anchors": ["falco/diff_dm.py: DM.render, DM.render_backprop, apply_precomputed_transfer_function, fourier_resample, setup_mft_matricies_scalars"]}
{"id": "C85", "title": "Surfaces from the differentiable DM do not depend on earlier calls", "statement": "gen_surf_from_act(dm, dx, Nout) with useDifferentiableModel gives, in any history of calls that all use one sampling dx, the surface of the present command alone. If the calls use different samplings (full and compact model), every surface is computed with the sampling of the first call: a later call with another dx silently returns another surface than it would by itself.", "quantifier": "All histories of calls", "why_tests_cant": "Quantifies over all influence functions, commands, images and array sizes (or over all histories of calls); a test runs one DM.", "anchors": ["falco/dm.py: gen_surf_from_act", "falco/diff_dm.py: dm_init_falco_wrapper"]}
{"id": "C86", "title": "The differentiable DM puts each influence function at its actuator", "statement": "Without tilt and resampling, DM.render returns the superposition of the influence functions weighted by the commanded heights, each centred on the pixel start + r*sep + shift of its actuator (cyclically in the array), one lattice pixel per actuator and all of them inside the padded array FALCO makes. For an even number of actuators across (and even pixels per actuator) the beam centre xc, yc given by the user lands within one pixel of the array centre, exactly on it when it is a whole number of pixels from the middle of the grid; for an odd number of actuators it lands one and a half actuator spacings (within a pixel) before the centre, so the surface is displaced.", "quantifier": "All influence functions, commands, integer shifts, grid sizes and beam centres", "why_tests_cant": "Quantifies over all influence functions, commands, images and array sizes (or over all histories of calls); a test runs one DM.", "anchors": ["falco/diff_dm.py: prepare_actuator_lattice, DM.__init__, DM.update, DM.render, dm_init_falco_wrapper"]}
{"id": "C87", "title": "Thin-film phases are referred to the plane d0 above the substrate", "statement": "For every passive stack, angle and polarisation, a slab of the incident medium of thickness d in front of the stack multiplies the transmission amplitude by exp(i kz d) and the reflection amplitude by exp(2 i kz d). Hence at normal incidence every entry of the complex transmission table is the amplitude of its films alone times exp(-2 pi i g/lambda), g = d0 - t_diel - t_metal - t_Ti (reflection: twice that phase); the other phase convention gives the complex conjugate.", "quantifier": "all passive stacks, thicknesses, wavelengths, angles", "why_tests_cant": "An identity of complex transfer matrices over all stacks.", "anchors": ["falco/thinfilm.py: solver", "falco/thinfilm.py: calc_complex_trans_matrix"]}
{"id": "C88", "title": "Truth model and compact model agree when configured identically", "statement": "When the truth-model parameters (samplings, array sizes, masks, distances, relays, normalisation) equal those of the compact model, falco.model.full and falco.model.compact return the same focal-plane field for every star position and weight, off-axis source, pair of DM commands, with or without apodizer and normalisation: this holds in layout 'fourier' for LC/APLC/HLC/SPLC/FLC/VORTEX and in 'fpm_scale' for HLC and VORTEX (vortex: Lyot stop opaque at the array edge when the relay does not rotate). It fails, and the failures are characterised, for: Zernike modes (full omits the imaginary unit, so compact = i*full), the name AVC (full always raises ValueError), 'fpm_scale' with LC/APLC/SPLC/FLC (only full scales the mask, and LC mixes scaled and unscaled steps), and flagDMwfe (UnboundLocalError in full, TypeError in compact).", "quantifier": "every system of every size, coronagraph type, layout, source, apodizer, DM surfaces, normalisation", "why_tests_cant": "Tests compare a few stored numbers of each model separately; agreement of two separately written propagation chains on all inputs and sizes is a universally quantified equality", "anchors": ["falco/model/models.py: full, full_Fourier, compact, compact_general"]}
{"id": "C89", "title": "Expected image of a trial command", "statement": "get_expected_summed_image(mp, cvar, dDM) leaves the commands of all DMs as it found them (of the rest of the DM objects only the pinned-actuator lists may grow). When the new command V and the previous command V-dDM of every DM in mp.dm_ind obey the DM constraints, the returned image is zero outside the correction region and inside it equals the sum over sub-bands of sbp_weight times |Eest + (E_model(V) - E_model(V-dDM))|^2, for one star and no Zernike modes. It is NOT the expected image when the new command exceeds a voltage limit: evaluating the model pins the railed actuator for good, so with the shipped limits a move of one actuator beyond its range is evaluated at the rail for both the new and the previous command and the predicted change is zero whatever the optics. The column of the estimate used for each sub-band is the right one when piston is the only controlled Zernike; with a second controlled Zernike the estimate of another mode is added.", "quantifier": "all DM states, commands, command changes, model fields, estimates, weights, numbers of sub-bands and Jacobian mode lists", "why_tests_cant": "The statement ranges over all commands, constraints and model responses; a test exercises one configuration, typically far from the voltage rails", "anchors": ["falco/imaging.py: get_expected_summed_image", "falco/ctrl.py: _efc", "falco/dm.py: enforce_constraints", "falco/setup.py: falco_set_jacobian_modal_weights"]}
{"id": "C90", "title": "Source position and brightness", "statement": "In the compact model (and, where C88 applies, the truth model): the intensity at every pixel is proportional to the star's weight; an off-axis companion at offset (x, y) gives exactly the field of the star moved by (x, y). With the focal-plane mask out, DMs conjugate to the pupil with arbitrary surfaces, even array sizes and masks with an empty first row and column (pixel centering), and an odd total number of pupil relays, moving the star to (xi, eta) lambda0/D translates its image by exactly (xi, eta) lambda0 fl/D. NOT so when flagRotation is False or the number of relays is even: then the image moves to (-xi, -eta).", "quantifier": "all pupils, DM surfaces, apodizers, Lyot stops, star positions and weights, array sizes and samplings", "why_tests_cant": "The law is about every position, pupil and DM surface at once; an image test looks at a few positions with one configuration and symmetric pupils hide sign errors", "anchors": ["falco/model/models.py: compact, compact_general, full", "falco/setup.py: falco_set_coordinates (XsDL, YsDL)", "falco/prop.py: relay, mft_p2f"]}
{"id": "C91", "title": "Zernike modes are derivatives of the field", "statement": "compact(mp, modvar) with modvar.zernIndex = j != 1 returns Zcoef times the derivative, at zero, of the camera field with respect to the amount in metres of Zernike j added to the wavefront at the entrance pupil, for every coronagraph type, apodizer, DM surfaces, source and Zernike map. In full() this is NOT so: the value returned is -i times that, because the factor i is missing.", "quantifier": "all systems, pupil fields, Zernike maps, coefficients, sources and DM surfaces", "why_tests_cant": "A derivative is a limit; finite differences at a few amounts and one coronagraph cannot settle it", "anchors": ["falco/model/models.py: compact, full", "falco/zern.py: gen_norm_zern_maps"]}
{"id": "C92", "title": "Zernike sensitivities", "statement": "calc_zern_sens(mp) returns, for at least two Zernike modes, camera axes of at least 2 pixels and FALCO full models whose DM constraints settle at the first evaluation, the matrix whose [iz, ia] entry is |E_aberrated - E_nominal|^2 for ZrmsVal of Zernike iz, averaged over wavelengths, polarisation states and the pixels of annulus ia (NaN if the annulus is empty); parallel and serial runs agree; the pupil fields and Zernike settings of mp are put back, and in parallel mp is not changed at all. Divided by the square of the amount it tends, for small amounts, to the mean intensity of the derivative of the field. With exactly one Zernike mode the call always raises IndexError.", "quantifier": "all models, pupil fields, Zernike lists, annuli, wavelengths, polarisations and DM states", "why_tests_cant": "The restoration and the averaging must hold for every list length and state; tests use one shipped configuration, never a single mode", "anchors": ["falco/zern.py: calc_zern_sens, falco_get_single_sim_Efield_LamPol, falco_get_single_sim_Efield_LamPolZern"]}
{"id": "C93", "title": "Normalised Zernike maps", "statement": "gen_norm_zern_maps(Nbeam, centering, inds) refuses any other centering than 'pixel' and 'interpixel' with ValueError; otherwise the array has the smallest even width that is at least Nbeam (interpixel) or Nbeam+1 (pixel), and slice iz samples the Noll polynomial of inds[iz] (index up to 276, see C127) at the pixel centres, even or odd about the centre of the array as the mode is. The radius should be normalised to 1 at Nbeam/2 pixels; the call of prop_begin gets Narray/Nbeam instead of Nbeam/Narray, so the pixel distances are multiplied by 2 Nbeam/Narray^2 instead of 2/Nbeam. The maps are right exactly for interpixel centering with an even integer Nbeam; every other tilt map, and so every pixel-centred one, is (Nbeam/Narray)^2 times the intended one.", "quantifier": "all beam widths, centerings, index lists and pixels", "why_tests_cant": "A test compares one map with a stored one; the error is a few percent and depends on the width of the beam", "anchors": ["falco/zern.py: gen_norm_zern_maps, propcustom_zernikes", "falco/proper/prop_begin.py: prop_begin", "falco/proper/prop_noll_zernikes.py: prop_noll_zernikes"]}
{"id": "C94", "title": "Zernikes of an obscured aperture", "statement": "For a central obscuration 0 <= eps < 1 the 22 formulas of propcustom_zernikes and prop_zernikes are orthonormal on the annulus eps < r < 1, and at eps = 0 they are the first 22 Noll polynomials. Without obscuration both functions return, for any list of modes up to index 276 (see C127), the sum of coefficient times Noll polynomial; with obscuration prop_zernikes returns the sum over the requested modes of coefficient times formula. propcustom_zernikes should do the same but returns only the last requested mode (the line adding to the map stands outside the loop). Both raise ValueError if an index above 22 is requested with eps != 0.", "quantifier": "all obscuration ratios, pairs of modes, lists of modes with coefficients, grids and pixels", "why_tests_cant": "Orthonormality is an integral identity for a continuum of eps; the shipped tests never ask for two obscured modes at once", "anchors": ["falco/zern.py: propcustom_zernikes", "falco/proper/prop_zernikes.py: prop_zernikes"]}
{"id": "C95", "title": "The optical model never creates light", "statement": "If every mask, DM transmission and input is passive (modulus at most one) and the samplings of the matrix Fourier transforms are whole-number and unaliased (camera and FPM arrays no larger than lambda*fl/(dx*dxi)), the energy of the camera field of a Lyot-type compact model is at most the energy of the field entering the coronagraph divided by the normalisation factor. The bound fails when the camera array is larger than one period of the transform.", "quantifier": "all systems, masks, DM surfaces, wavelengths, array sizes and input fields", "why_tests_cant": "Energy conservation is an inequality over all fields and all samplings; a test evaluates one system", "anchors": ["falco/model/models.py: compact_general", "falco/prop.py: mft_p2f, mft_f2p, relay, ptp"]}
{"id": "C96", "title": "Off-axis throughput", "statement": "calc_thput returns the off-axis image, which is the sum over the stars of mp.star.count and over the sub-bands of weight times |E|^2, and the light of the image selected by the metric ('hmi': pixels at or above half the maximum; 'ee' or 'e.e.': pixels with RHOS at most the radius) divided by sumPupil times the mean I00. For a passive, unaliased system whose sub-bands share the input field and I00 the throughput lies between 0 and the sum of star weights times sub-band weights; it does not decrease with the radius for 'ee'. It can exceed 100 % when the I00 of the sub-bands differ. Another metric raises UnboundLocalError, and mp.star.count larger than the stars of the compact model raises IndexError.", "quantifier": "all systems, stars, sub-bands, metrics, radii and field points", "why_tests_cant": "A throughput test checks one number; that the figure of merit is a fraction must hold for every system", "anchors": ["falco/imaging.py: calc_thput, get_sim_offaxis_image_compact, calc_psf_norm_factor"]}
{"id": "C97", "title": "Controlled actuators and Jacobian columns match through a run", "statement": "In a run whose set of DMs does not change, in every iteration and for every relinearisation schedule: the controlled actuators of a DM are those kept by the culling of the first iteration, and the Jacobian has one column per controlled actuator, column k being the response of the k-th controlled actuator (tied actuators merged) at the latest relinearisation. When mp.dm_ind_sched changes the set: without relinearisation the controller fails with ValueError if any actuator had been culled; with relinearisation the Jacobian is computed for the old controlled set and column positions are taken for actuator numbers, so that commands go to the wrong actuators; a DM that was not in use raises IndexError when it is scheduled with relinearisation (its Nele is 0), ValueError without.", "quantifier": "all runs: lengths, relinearisation schedules, DM schedules, thresholds, tied lists and Jacobians", "why_tests_cant": "The bookkeeping depends on the whole history of culling, relinearisation and DM changes", "anchors": ["falco/wfsc.py: loop", "falco/ctrl.py: cull_weak_actuators, apply_spatial_weighting_to_Jacobian", "falco/model/models.py: jacobian, apply_ties_to_jac"]}
{"id": "C98", "title": "Antialiased ellipses", "statement": "prop_ellipse draws exactly the ellipse it is asked for: every pixel is the fraction of its nsub x nsub points lying in the ellipse of the given centre and radii turned clockwise by ROTATION (one minus that with DARK); pixels wholly inside are 1, wholly outside 0, the image is symmetric about the centre, moves with it by whole pixels and grows with the radii. Neither the bounding box nor the edge shortcut changes a pixel. An ellipse beyond the array is not drawn as nothing: IndexError is raised.", "quantifier": "all array sizes, odd sub-sampling factors up to 1000, centres, radii up to 1e7 pixels, rotations and pixels", "why_tests_cant": "The shortcut (corners outside/inside a threshold) must never skip a partially covered pixel, for any shape, position and orientation; tests draw a few shapes", "anchors": ["falco/proper/prop_ellipse.py: prop_ellipse", "falco/proper/prop_circular_aperture.py: prop_circular_aperture"]}
{"id": "C99", "title": "DM stop masks", "statement": "falco_gen_DM_stop returns, on an even-sized array, the antialiased centred disc of the given diameter, for every positive sampling and diameter and both centerings. The array contains the whole disc with interpixel centering; with pixel centering exactly when the diameter is at most N-1 pixels, so that a stop of 2m+1.5 pixels is cut on one side. The mask depends on the history of the process: after a focal-plane mask was made, every grey pixel has another value than in a fresh process.", "quantifier": "all samplings, diameters, centerings, sub-sampling factors and pixels", "why_tests_cant": "Size and parity arithmetic meets the drawing routine; the clipped cases are isolated diameters, and the dependence on earlier calls is invisible to a test that makes one mask", "anchors": ["falco/mask.py: falco_gen_DM_stop, _init_proper, gen_annular_fpm", "falco/proper/prop_set_antialiasing.py"]}
{"id": "C100", "title": "Annular focal-plane masks", "statement": "gen_annular_fpm returns the antialiased annulus: every pixel is the coverage by the outer disc (1 when the outer edge is at infinity) times FPMampFac on the part of the pixel in the inner spot and 1 elsewhere; pixels wholly in the spot transmit exactly FPMampFac, between the edges 1, beyond the outer edge 0, all values in [0,1] for FPMampFac in [0,1]. Without Narray the array is even and contains the whole mask for every offset and centering, so the call succeeds and nothing is cut off.", "quantifier": "all resolutions, radii, offsets, centerings, amplitude factors, array sizes and pixels", "why_tests_cant": "Position, size and grey values combine over a continuum of offsets and radii", "anchors": ["falco/mask.py: gen_annular_fpm"]}
{"id": "C101", "title": "Antialiased rectangles", "statement": "prop_rectangle draws exactly the rectangle it is asked for: every pixel is the mean over nsub strips of the exact length, within the pixel, of the rectangle's section along the middle of the strip (one minus that with DARK); pixels wholly inside are 1, wholly outside 0, values lie in [0,1] and a larger rectangle covers every pixel at least as much, for every size, position (also partly or wholly outside the array) and rotation. ROTATION turns rectangles counter-clockwise, ellipses clockwise: shapes inscribed in one another are no longer so when both are given the same angle.", "quantifier": "all array sizes, sub-sampling factors, centres, positive widths, rotations and pixels", "why_tests_cant": "The scan advances along two chains of edges with one step per sub-row, with special cases for horizontal edges, single-pixel strips and clipping; a wrong case shows up only for particular shapes and angles", "anchors": ["falco/proper/prop_rectangle.py: prop_rectangle"]}
{"id": "C102", "title": "Antialiased ellipses of the mask library are their exact subsampled coverage", "statement": "For every circle (any radius, clocking angle and shear) drawn by falco_gen_ellipse on an array that reaches at least 26 pixels beyond its centre on the farther side, and for every unclocked centred ellipse of any aspect ratio on at least 52 (53 when centred between pixels) pixels, every pixel of the result is exactly the fraction of its 101 x 101 sub-points that lie in the figure turned counter-clockwise by clockingDegrees: the grey band computed from one corner of the array never leaves an edge pixel at 0 or 1. For all inputs values stay in [0, 1] and arrays of fewer than 2 pixels raise IndexError. Violated: for clocked elongated ellipses the band can be too narrow (an edge pixel stays at 1), and magFac other than 1 is ignored in the grey pixels.", "quantifier": "every array size, beam sampling, radii, clocking, shear, magnification and centering", "why_tests_cant": "the window of grey pixels is a heuristic derived from one corner; whether it always contains the edge is a geometric inequality over all sizes and shapes", "anchors": ["falco/mask.py:falco_gen_ellipse", "falco/mask.py:gen_ellipse"]}
{"id": "C103", "title": "Simple pupils are the product of outer disc, central obscuration and struts", "statement": "falco_gen_pupil_Simple (without hyper-Gaussian edges) refuses negative strut widths (TypeError) and ID > OD (ValueError); otherwise every pixel is the coverage of the outer ellipse times the uncovered part of the inner ellipse (if ID > 0) times, for every entry of angStrut, the uncovered part of a strut 0.6 beam diameters long leaving the (sheared) centre at that angle plus the clocking, counter-clockwise; values are in [0, 1] and adding a strut never brightens a pixel. Violated on arrays of odd size: struts are displaced by half a pixel against the apertures.", "quantifier": "every beam sampling, array size, diameters, number and angles of struts, strut width, stretch, clocking, shear and centering", "why_tests_cant": "masks are compared in tests with stored images of a few settings; registration and rotation sense must hold for all angles, shears and sizes", "anchors": ["falco/mask.py:falco_gen_pupil_Simple", "falco/proper/prop_rectangular_obscuration.py:prop_rectangular_obscuration"]}
{"id": "C104", "title": "Detector noise: quantisation, mean and saturation", "statement": "add_noise_to_subband_image returns, for every realisation of the random draws, an image whose every pixel is an integer number of counts averaged over the exposures and within half a count of the electrons drawn; over any draws with the configured means (photo-electrons gain*peakFlux*tExp*image, dark electrons darkCurrentRate*tExp, zero-mean read noise) the expected image is the input image plus the dark level darkCurrentRate*tExp/(gain*peakCounts), up to half a count; over uncorrelated draws with the variances of Poisson draws and of a standard deviate the root mean square deviation from that is at most sqrt((electrons + dark electrons + readNoiseStd^2)/Nexp) in units of the peak electrons plus half a count. A sub-band without flux or exposure entry is an IndexError, negative intensities a ValueError. Violated: mp.detector.wellDepth is never applied, so pixels far above the well depth are returned unsaturated.", "quantifier": "every image, detector setting, number of exposures and realisation (or distribution) of the random draws", "why_tests_cant": "a test sees one seed; the claims are about every realisation and about expectations", "anchors": ["falco/imaging.py:add_noise_to_subband_image", "falco/setup.py:set_optional_variables"]}
{"id": "C105", "title": "Gain, commands and side effects of AD-EFC trials", "statement": "With controller 'AD-EFC' the gain (dmfac) has no effect on a trial: for every optimiser, state and regularisation the intensity, command and DM state are the same for all gains, so the grid search always reports the first gain of dmfacVec, together with the regularisation of smallest intensity and its command (control weight times the optimiser's result). From a DM state that satisfies its constraints, with control weights between 0 and 1 and an optimiser that stays within its bounds, trials leave the DMs exactly as they were. The cost is evaluated at the command the vector says for each DM; with only one DM in dm_ind it raises ValueError as soon as the other DM has controlled actuators.", "quantifier": "all optimisers, DM states, regularisations, gains, control weights, image functions and command vectors", "why_tests_cant": "the gain is read and never used; a test with one gain, or one that only looks at the intensity, cannot tell, and the absence of side effects concerns every path of the optimiser", "anchors": ["falco/ctrl.py:_ad_efc", "falco/ctrl.py:_planned_ad_efc", "falco/model/models.py:compact_reverse_gradient"]}
{"id": "C106", "title": "Scale of the AD-EFC penalty", "statement": "set_utu_scale_fac sets the penalty scale to the largest weighted response among the selected actuators of the DMs in use and restores the controlled actuators of both DMs, for every Jacobian on more than one pixel and at least two selected actuators per DM; with all actuators selected and uniform spatial weights the AD-EFC penalty scale*10^reg is the EFC penalty for the same regularisation. If the Jacobian raises, or a DM has exactly one selected actuator (ValueError), the DM keeps the selected subset as its controlled actuators.", "quantifier": "all Jacobians, mode weights, subsets of actuators, DM combinations and exceptions", "why_tests_cant": "the maximum is over arbitrary Jacobians, and the state after an exception is not looked at by tests of the result", "anchors": ["falco/ctrl.py:set_utu_scale_fac", "falco/ctrl.py:wrapper"]}
{"id": "C107", "title": "Image normalisation", "statement": "After falco.imaging.calc_psf_norm_factor, for Lyot-type coronagraphs the normalised image of the first star displaced to the reference position (mp.source_x/y_offset_norm), with unchanged DMs, has peak exactly 1 in the compact model, in its evaluation mode and (with flagSim) in the full model, at every sub-band and wavelength at which light arrives; for vortex coronagraphs the same holds for the compact image without the focal-plane mask. Multiplying the input field by any nonzero constant changes no normalised image. Outside simulation the factors of the full model are 1. The factors do not depend on parallel execution unless an HLC with wavelength-dependent masks is computed by several threads (then a schedule gives wrong factors). If no light of the first star arrives, the factor is 0 and 'normalised' calls silently return the unnormalised image of the displaced star (defect).", "quantifier": "all optical systems, fields, DM surfaces, stars, sub-bands and wavelengths, scale factors, thread counts and schedules", "why_tests_cant": "The peak is a maximum over an arbitrary computed image, and the factor depends on every system parameter; thread interleavings cannot be enumerated by tests.", "anchors": ["falco/imaging.py:calc_psf_norm_factor", "falco/imaging.py:_model_full_norm_wrapper", "falco/model/models.py:compact", "falco/model/models.py:full"]}
{"id": "C108", "title": "Optional parameters", "statement": "flesh_out_workspace fills in optional parameters (set_optional_variables). In a configuration of plain values with all required parameters present and of the right types it succeeds; a parameter given by the user keeps its value, except a fixed list of bookkeeping values (actuator counts, dV, path.falco, DM8V0/DM9V0, mas2lam0D); afterwards every optional parameter is there, with its documented default if it was missing, defaults derived from other parameters (voltage limits, bias maps) follow the user's values, and a second run changes nothing. Without one of the required parameters it raises an exception. Lazy values whose expressions only depend on parameters that already have values are kept; an exception other than AttributeError, or a cycle, in the expression of an optional parameter is raised, not swallowed. Violated: a lazy value that depends on a parameter defaulted later is dropped without a message; mp.dm_ind as a Python list leaves dV unset; a star count without positions gets positions for one star only.", "quantifier": "all configurations (any set of given parameters, plain or lazy with any dependencies)", "why_tests_cant": "The behaviour depends on which of about 140 parameters are given and on the dependencies between lazy values; tests use a few example configurations.", "anchors": ["falco/setup.py: set_optional_variables, convert_to_one_dim_arrays", "falco/config/Object.py", "falco/config/Eval.py"]}
{"id": "C109", "title": "Dividing the work of the control Jacobian", "statement": "Each Jacobian column depends on mp only, not on what earlier or concurrent calls left in it: with any number of threads, however they interleave, the parallel models.jacobian consists of the columns the calls return on their own, and for completely controlled DM1 and DM2 it equals the serial one; every schedule can be continued to the end. Slices written to files by several processes (write_jac_slices): no two slices share a file; at every moment, so also when processes are killed, each file is either as before or the complete right column of its mode, DM and actuator, finished units of work are on disk, and at the end the files hold the columns of the serial Jacobian. A pickle that cannot be read or a coronagraph without a model ends every process that has work with an exception and writes nothing. jacobian accepts exactly eight coronagraphs (LC, APLC, HLC, FLC, SPLC, VC, AVC, VORTEX) in the layouts fourier, proper and fpm_scale and HLC, SPC and SPLC in the Roman ones. Violated: write_jac_slices has no model for the SPC; reassemble_jac_from_slices raises TypeError whenever there is anything to read; a controlled DM8 or DM9 makes the serial Jacobian raise and is ignored by the parallel one.", "quantifier": "all thread and process schedules, crash points, divisions of the work (with overlaps), numbers of modes and actuators, systems", "why_tests_cant": "All interleavings, kill points and divisions of the work.", "anchors": ["falco/model/models.py: jacobian, _jac_middle_layer, write_jac_slices, reassemble_jac_from_slices, load_pickle_file", "falco/model/jacobians.py: lyot, vortex, no_fpm"]}
{"id": "C110", "title": "Cubic convolution interpolation", "statement": "prop_cubic_conv returns, for an image given row-major and transposed (or square and as it is) and coordinates at least 1.5 pixels from the edges, the cubic convolution (Keys, a = -1/2) of the image at the coordinates: linear in the image, equal to the pixels at whole coordinates and exact for images quadratic in column and row. With GRID=True and as many rows as columns this holds with and without threads; every output row is computed by exactly one thread for every thread count. It does not hold in these cases: (1) nearer to the edges or outside, the value is that of a point with the same fraction near pixel 2 or n-2 (so columns 0 and 1 come out as column 2, column n-1 as n-2); (2) THREADED=True (the default) with coordinate arrays uses the x kernel of another output pixel (with vectors: of the first point), wrong whenever the fractions differ; (3) a column-major array is interpolated as if transposed, and a row-major rectangular one passed as it is gives the wrong pixels.", "quantifier": "all images of at least 4 by 4 pixels, all coordinates (arrays of any shape, grids, vectors), both libraries, all thread counts", "why_tests_cant": "Tests compare a few images with smooth content, where edge pixels and kernels of the wrong fraction differ little.", "anchors": ["falco/proper/prop_cubic_conv.py:prop_cubic_conv", "falco/proper/cubic_conv_c.c", "falco/proper/cubic_conv_threaded_c.c", "falco/dm.py:propcustom_dm"]}
{"id": "C111", "title": "Magnification of images", "statement": "prop_magnify places output pixel (j, i) at ((i - size_out//2)/mag + size_in//2, ...) of the input, so the centre pixel is kept for every magnification and size. Where a window of 13 by 13 pixels around that place lies in the image, the value is the full damped sinc (Lanczos, half width 6) interpolation of the image there, which is linear and equal to the pixel at whole places, divided by mag (complex field with CONSERVE, or AMP_CONSERVE) or mag^2 (real image with CONSERVE); with and without the C library the same. With QUICK the places are the same and the kernel is cubic. Elsewhere a real image gets 0. It does not hold that magnification 1 returns the image (a border of 6 pixels is 0), that library and Python code agree at the edges (the Python code rounds away from 0 and leaves more pixels 0), or that the border is defined for complex images with the library (it contains what was in memory, the same in real and imaginary part).", "quantifier": "all square images, magnifications > 0, output sizes, switches, contents of fresh memory", "why_tests_cant": "A test sees the few pixels and sizes it samples; uninitialised memory is often zero in a test.", "anchors": ["falco/proper/prop_magnify.py:prop_magnify", "falco/proper/prop_szoom.py:prop_szoom", "falco/proper/prop_szoom_c.c:prop_szoom_c"]}
{"id": "C112", "title": "Error maps read from files", "statement": "prop_errormap with WAVEFRONT or MIRROR_SURFACE never changes the intensity, and on a grid of even size it adds the map it returns to the phase as prop_add_phase does (times -2 for a mirror surface). Without rotation and magnification that map holds, for each pixel of the wavefront grid, the value of the file's map at the pixel's place (measured from the map centre in map pixels of RADPIX, SAMPLING or PIXSIZE, in this order), times the unit factor and MULTIPLY; a map without pixel size raises an error. An aligned map of equal size is copied (except at the edges, C110); rotations by 90 and 180 degrees move whole pixels. It does not hold: that yshift shifts the map in y (xshift is used for both directions and yshift ignored); that amplitude maps can be used (every call with AMPLITUDE raises); that XC_MAP without YC_MAP is rejected (with SAMPLING it is ignored, without it raises UnboundLocalError); that the default centre of a rectangular map is its centre (rows and columns are exchanged); that prop_rotate accepts XC, YC, XSHIFT, YSHIFT with the library (each raises UnboundLocalError); and that it interpolates correctly at other angles with the library (the fraction of the first pixel in the row is used for the whole row).", "quantifier": "all maps of at least 4 by 4 pixels, headers, argument combinations, wavefronts and grid sizes; both interpolation back ends (SciPy's as an arbitrary function)", "why_tests_cant": "Shifts, rectangular maps, partial options and amplitude maps are combinations that tests have to hit one by one.", "anchors": ["falco/proper/prop_errormap.py:prop_errormap", "falco/proper/prop_readmap.py:prop_readmap", "falco/proper/prop_resamplemap.py:prop_resamplemap", "falco/proper/prop_rotate.py:prop_rotate"]}
{"id": "C113", "title": "Downsampled pupil masks are area averages put in the right place", "statement": "rotate_shift_downsample_pupil_mask refuses to upsample (ValueError). Otherwise it returns a square array of even size whose first row and first column are zero and whose remaining size is the least odd number at least as large as the size of the mask in output pixels plus 2 plus twice the larger offset, so that every pixel of the unrotated mask moved by the offsets lies inside. The smoothing with Fourier transforms before the resampling is exactly the mean of the mask over the disc of one output pixel diameter around each pixel (wrapped around at the borders): it keeps the total transmission, stays between the smallest and the largest value of the mask and leaves flat regions unchanged. Without rotation, an output pixel that falls on a pixel of the mask (centre pixel on centre pixel, moved by the offsets) is the mean of the mask over that disc. A rotation by 90 degrees turns the mask counter-clockwise about its centre pixel (rows counted upwards) before the offsets are applied. Row 0 and column 0 of a mask of even size have no influence. Beyond the mask the border of the smoothed mask is repeated, not zero.", "quantifier": "all square real masks of every size, all positive beam sizes, all offsets and rotation angles, every rotation routine and every spline that takes the given values at its nodes (and, for the last sentence, is constant outside of its nodes)", "why_tests_cant": "the identity between the Fourier computation and the mean must hold for every mask, size and ratio of resolutions; the tests compare a few masks up to a tolerance", "anchors": ["falco/mask.py: rotate_shift_downsample_pupil_mask", "falco/util.py: ceil_odd"]}
{"id": "C114", "title": "The vortex mask and the windows around its centre", "statement": "falco_gen_vortex_mask changes only the phase; for an integer charge m it is the m-th power of the direction of each point as seen from the axis (pixel N/2), 1 on the axis whatever the charge, 1 everywhere for charge 0, conjugate for the opposite charge, products for sums of charges; a half turn multiplies it by (-1)^m and a quarter turn by i^m. gen_tukey_for_vortex is between 0 and 1, refuses widths below a tenth of a sample, and for the width 2*outR and the parameter 1 - inR/outR it is the radial cosine window from inR to outR: exactly 0 from outR on, exactly 1 up to one table step inside of inR, and within pi/2 divided by the number of table steps across both tapers everywhere; when inR >= outR it is 1 everywhere, also outside. In mft_p2v2p the coarse and the fine window are therefore the same function of the radius in the focal plane, from inVal to outVal, up to the errors of their tables; the reverse propagation is the conjugate of the forward propagation of the conjugate field, for every charge; with charge 0 and matched sampling the propagation turns the pupil by half a turn.", "quantifier": "all charges, array sizes, beam radii, window radii, points and pupil fields", "why_tests_cant": "the symmetry and the accuracy of the window concern every charge, size and radius; tests look at a few arrays", "anchors": ["falco/mask.py: falco_gen_vortex_mask", "falco/prop.py: gen_tukey_for_vortex, mft_p2v2p", "falco/util.py: azimuthal_grid, radial_grid"]}
{"id": "C115", "title": "Polygon masks", "statement": "For the vertices of any strictly convex polygon, in either order, the polygon routine returns an image in which every pixel is the mean, over antialias_subsampling equal strips of the pixel, of the exact length within the pixel of the section of the polygon along the middle of the strip, and one minus that with DARK; the values lie between 0 and 1; the same holds for regular polygons with their first vertex at ROTATION degrees (every hexagon within the array included). Required: no edge is passed within one sub-row (save at the lowest corner and the top), at most the lowest corner and its neighbours below the array (with more corners there, and no more corners than sub-rows, all rows but the first are still right), every row of the polygon meets the array. Violated outside of that: the last column stays empty where the polygon crosses it and leaves the array; a section longer than a pixel to the right of the array is an IndexError; a polygon to the left of the array fills the rows beside it; a regular polygon that ends in the pixel row just above the array is an IndexError.", "quantifier": "all grid sizes, samplings, beam radii, subsampling factors, numbers of vertices, vertex positions, centres, radii and rotations, with and without NORM and DARK", "why_tests_cant": "The scan follows two chains of edges and adds fractions sub-row by sub-row; it must agree with the geometry for every polygon and position, and a test draws a few.", "anchors": ["falco/proper/prop_irregular_polygon.py:prop_irregular_polygon", "falco/proper/prop_polygon.py:prop_polygon"]}
{"id": "C116", "title": "Focal-plane coordinates agree with those of the propagations", "statement": "The coordinates stored for the focal-plane mask are, pixel by pixel, the ones the propagations to that plane use (pitch lambda0*fl/D/res, centre between or on pixels per the centering), for every mask size in the compact model; dimensionless coordinates are the same in units of lambda0/D; sizes set by the user take precedence over those of the mask; the image plane has pitch lambda0*fl/D/res and lenslets sit at the given number of lambda0*fl/D; the dark-hole region is laid out on the coordinates of the image. Violated: in the full model with centering 'pixel' and one size odd, the other even, the vertical coordinates are off by half a pixel; with centering 'pixel' and an odd number of pixels given by the user the dark-hole region is laid out half a pixel off the image.", "quantifier": "all mask sizes (even, odd, non-square), both centerings, all resolutions, focal lengths, wavelengths and diameters", "why_tests_cant": "The agreement has to hold for every size and parity, and a test uses one even square array.", "anchors": ["falco/setup.py:falco_compute_fpm_coordinates", "falco/setup.py:compute_Fend_resolution", "falco/mask.py:falco_gen_SW_mask", "falco/prop.py:mft_p2f"]}
{"id": "C117", "title": "DM surfaces, poke stamps and the tilted differentiable DM are in the same place", "statement": "For every DM size, sampling, tilt, rotation and rotation order, the PROPER-style DM surface at a pixel is the subsampled DM surface at the point that is seen at the pixel's position when the DM is turned by the given angles in the given order about its (xc, yc); where an actuator is seen the surface is the superposition of the influence functions (middle pixel of the influence-function array on the actuator); outside the computed window it is zero, and the window holds every pixel that shows the DM; the subsampled grid holds the whole influence function of every actuator. The stamps of the poke cube (used by the Jacobian) are centred where the surface shows the actuator and sample the influence function at the pixel's position relative to it; the array size Ndm holds the turned DM. The differentiable DM built by FALCO is tilted in the same way, and render and render_backprop look up inverse points; its wavefront error is 2 cos(t) times its surface for a tilt t about one axis. Violated: centering 'interpixel' puts every stamp half a pixel off, and a rotated DM surface off by up to a pixel; influence functions with an even number of pixels raise ValueError; for a tilted differentiable DM render_backprop is not the adjoint of render; a differentiable DM clocked by 90 degrees has zero wavefront error.", "quantifier": "all DM sizes, pitches, samplings, influence functions, centres, tilts, rotation angles and orders, both centerings, all pixels and commands", "why_tests_cant": "The three implementations compute the same geometry by different formulas; a test compares a few angles with a tolerance.", "anchors": ["falco/dm.py:propcustom_dm", "falco/dm.py:gen_surf_from_act", "falco/dm.py:gen_poke_cube", "falco/diff_dm.py:prepare_fwd_reverse_projection_coordinates", "falco/diff_dm.py:apply_homography", "falco/diff_dm.py:DM.render", "falco/diff_dm.py:DM.render_backprop", "falco/diff_dm.py:dm_init_falco_wrapper"]}
{"id": "C118", "title": "DM statistics belong to the command history", "statement": "In a run of wfsc.loop, whatever estimators, controllers and models do to the DMs, entry 0 of a DM's command history is the initial command, and for every iteration k and every DM in use the entries k of Vpv, Spv and Srms are the peak-to-valley of the command, the peak-to-valley of the surface over the whole array, and the root mean square of the surface (piston included) over the pixels between IDnorm/2 and 1/2 beam diameters from the centre, all for entry k+1 of the command history. Required: no bias voltages, limits around zero, pins within them, no chains of ties. Violated otherwise: with the default bias and a pinned actuator the statistics and the stored command differ, because making the surface changes the command; and a DM left out by the schedule of an iteration keeps zeros in the statistics whatever its command is.", "quantifier": "all runs: numbers of iterations, DM schedules, sequences of command writes and model evaluations, DM states (dead, pinned, tied, bias, limits), surfaces", "why_tests_cant": "the agreement must hold along every history of commands and model evaluations; a test fixes one", "anchors": ["falco/wfsc.py:falco_compute_dm_stats", "falco/wfsc.py:store_dm_command_history", "falco/wfsc.py:loop", "falco/util.py:radial_grid", "falco/dm.py:enforce_constraints"]}
{"id": "C119", "title": "Fitting the DM to a surface seen in the beam", "statement": "fit_surf_to_act of a surface that shows a DM - of any number of actuators, pitch, centre, tilts, rotation and rotation order - first yields the heights of that DM at its actuators (entry (r, c) the height at the actuator in row r, column c), to the accuracy of the interpolations. For a surface made by gen_surf_from_act these are the commanded heights convolved with the influence function sampled at whole actuators from its middle, and with the least-squares method, a point-symmetric influence function and exact interpolations the commands are recovered (orientation 'rot0'). Surfaces of the size of the command array are fitted as they are; smaller ones and unknown methods are refused. Violated: the orientation of the DM is not undone (with 'rot90' the fitted command is the original turned by a quarter), and the influence function used by the 'proper' method is read beyond the edge of its array, where a spline continues the edge values.", "quantifier": "every DM size, pitch, centre, tilt, rotation and rotation order, centering, surface size, sampling, command and influence function", "why_tests_cant": "a test fits one surface with one DM setting and compares with a tolerance that hides a displaced or transposed result", "anchors": ["falco/dm.py: fit_surf_to_act", "falco/dm.py: derotate_resize_surface", "falco/dm.py: resample_inf_func", "falco/dm.py: gen_surf_from_act"]}
{"id": "C120", "title": "Error maps from a power spectral density", "statement": "For all random numbers that do not make a flat map, prop_psd_errormap (even grids, no rotation) returns a map whose RMS about its mean is the root of the sum of the documented PSD over all frequencies of the grid but zero times the frequency step, or amp if RMS or AMPLITUDE is given; without AMPLITUDE its mean is 0, and at each frequency the modulus of its Fourier transform is proportional to the root of the PSD there (times a factor of the random numbers). An amplitude map has the maximum AMPLITUDE and multiplies the field; other maps are added to the phase as prop_add_phase does, twice with MIRROR; NO_APPLY leaves the wavefront alone. If FILE exists the other arguments have no influence, and a map written and read again is the same except in the first two and the last rows and columns. With MAX_FREQUENCY nothing is left above it. Violated: below MAX_FREQUENCY the PSD is multiplied by the frequency; a ROTATION is not carried out as one (at 90 degrees the PSD depends on the frequency in y only); the sign of a MIRROR surface is opposite to prop_errormap's; on odd grids the map has a piston.", "quantifier": "every even grid size, sampling, PSD parameters, option combination, wavefront, file and all draws of random numbers", "why_tests_cant": "the map is random; a test sees one draw, and the RMS normalisation hides a wrong spectral shape", "anchors": ["falco/proper/prop_psd_errormap.py: prop_psd_errormap", "falco/proper/prop_readmap.py: prop_readmap", "falco/proper/prop_errormap.py: prop_errormap"]}
{"id": "C121", "title": "Running a prescription over a list of wavelengths", "statement": "prop_run accepts only grid sizes that are powers of two (or 0) and raises for every other integer before it changes anything. For one wavelength in microns it returns the image and sampling that the prescription returns for that wavelength in metres, the grid size and PASSVALUE, or raises what it raises. With a file of two or more (wavelength, weight) rows it returns the weighted sum of the images of the single runs and the sampling of the last wavelength, and raises what the first failing wavelength raises. For a prescription whose outcome depends only on its arguments and the switches of prop_run, the result does not depend on earlier runs. Violated: a file with one row raises TypeError.", "quantifier": "every prescription (as an arbitrary function that may also change module variables), list of wavelengths and weights, switch combination, passed value and history of earlier runs", "why_tests_cant": "prescriptions are user code and module variables persist between runs, so the histories cannot be enumerated", "anchors": ["falco/proper/prop_run.py: prop_run", "falco/proper/switch_set.py: switch_set"]}
{"id": "C122", "title": "Running prescriptions in parallel", "statement": "prop_run_multi pairs wavelengths and passed values as documented (no value; one dict for all wavelengths; as many dicts as wavelengths, matched; several dicts at one wavelength), and, for prescriptions whose outcome depends only on their arguments and the switches, returns the images and samplings that direct runs of prop_run give, in that order, for every number of workers and every schedule of the worker processes; if an instance raises, the call raises what some instance raises. It always returns when every worker keeps acting. Lists of different lengths and NCPUS below 1 are refused before any instance is run. Violated: PASSVALUE={} is not passed on although prop_run passes it; a prescription that depends on module variables it changes itself gives results that depend on the schedule.", "quantifier": "every prescription, list of wavelengths, PASSVALUE, number of workers, schedule of the workers and state of the module variables", "why_tests_cant": "the order in which worker processes take and finish their chunks is not under the control of a test", "anchors": ["falco/proper/prop_run_multi.py: prop_run_multi", "falco/proper/prop_execute_multi.py: prop_execute_multi"]}
{"id": "C123", "title": "Configurations read from yaml", "statement": "ModelParameters.from_yaml accepts a text exactly if it is a mapping that uses no tags but !eval (before strings), !Probe and !ProbeSchedule and whose keys are strings other than 'self', at every depth, after any history of from_yaml calls. The new object then has, for each key of the text, the value written there (the last one if a key is repeated): mappings as objects, lists, !Probe and !ProbeSchedule with the defaults for fields not given, !eval as a lazy expression; and its defaults for all other keys. Lazy expressions see the configuration they belong to under the name mp, whatever is read later, unless the same context dictionary is passed to two calls. Violated: with a shared context dictionary the lazy expressions of the first configuration see the second; the loader changes PyYAML's SafeLoader for the whole process, so tags registered by an earlier load_from_str are accepted later and yaml.safe_load gives Objects afterwards.", "quantifier": "every parsed document, context, defaults and history of calls in the process", "why_tests_cant": "documents are trees of any depth, and the constructor table and the context dictionaries are shared between calls", "anchors": ["falco/config/yaml_loader.py: load_from_str, object_constructor, _get_loader", "falco/config/ModelParameters.py: ModelParameters.from_yaml"]}
{"id": "C124", "title": "Changing and reading the field of a PROPER wavefront", "statement": "On even grids prop_multiply, prop_divide, prop_add_wavefront and prop_add_phase act, pixel by pixel, on the centred field that prop_get_wavefront shows (times the array, divided by it, plus it, times exp(2 pi i/lambda map)) and change nothing else; a real number acts as the constant array. Division undoes multiplication when nothing is zero. prop_get_amplitude and prop_get_phase are the polar form of prop_get_wavefront, with phases in (-pi, pi]; a phase map leaves amplitudes alone and, where no wrap occurs, is added to the phase read back. Arrays that are not 2-D or have a dimension other than n or 1 raise ValueError. Violated: a single row or column is silently repeated over the grid; complex numbers raise TypeError where complex arrays are accepted; on odd grids the array lands one pixel off.", "quantifier": "every grid size, wavefront state, number, array of any shape, focal ratio and wavelength", "why_tests_cant": "the claims hold for every field and every array; a test fixes a few arrays, usually symmetric ones on even grids, where a one-pixel shift or a broadcast cannot be seen", "anchors": ["falco/proper/prop_multiply.py prop_multiply", "falco/proper/prop_divide.py prop_divide", "falco/proper/prop_add_wavefront.py prop_add_wavefront", "falco/proper/prop_add_phase.py prop_add_phase", "falco/proper/prop_get_wavefront.py prop_get_wavefront", "falco/proper/prop_get_amplitude.py prop_get_amplitude", "falco/proper/prop_get_phase.py prop_get_phase", "falco/proper/prop_get_nyquistsampling.py prop_get_nyquistsampling", "falco/proper/prop_get_sampling_arcsec.py prop_get_sampling_arcsec"]}
{"id": "C125", "title": "Hexagonal Zernike polynomials", "statement": "The polynomials that prop_hex_zernikes evaluates with indices 1 to 17 and 19 are exactly orthonormal over the regular hexagon (zero angle through a vertex), so the RMS of a sum is the root of the sum of squared coefficients; 20 to 22 (rounded coefficients) are so within 1e-8. On even grids each pixel that touches the hexagon holds the sum of coefficient times polynomial at its place in the hexagon's frame, wherever the hexagon lies on (or off) the grid; pixels further than hexrad + 2.5 dx hold 0; fewer indices than coefficients raise IndexError. Violated: number 18 has mean square 0.9586 and is not orthogonal to number 10 (4365 in the code for 4635); a map of piston only raises ValueError.", "quantifier": "all coefficients, lists of indices, even grid sizes, samplings, hexagon radii, centres and rotations; all pairs of indices", "why_tests_cant": "orthonormality is an identity of integrals over the hexagon and the map claim ranges over every placement of the hexagon including those cut by the grid's edge; the digit transposition in Z18 changes its RMS by 2 %, within any tolerance a sampled test would need", "anchors": ["falco/proper/prop_hex_zernikes.py prop_hex_zernikes"]}
{"id": "C126", "title": "Segmented hexagonal apertures", "statement": "prop_hex_wavefront places one segment on each cell of the hexagonal lattice within nrings rings, 3*nrings*(nrings+1)+1 in all, number nrings the central one, neighbours hexsep apart, turned by ROTATION and moved by XCENTER, YCENTER; different centres are never closer than hexsep. When the aperture fits in the grid and OMIT is a list, the transmission map is the sum of the pixel coverages of the hexagons neither omitted nor darkened, the phase at a pixel is the sum over the drawn segments touching it of coefficient times hexagonal Zernike, and the field is multiplied by aperture * exp(2 pi i/lambda phase), or left alone with NO_APPLY. With a gap between segments (hexsep > sqrt(3) hexrad) they have no point in common and the transmission lies in [0, 1]. Violated: the default call without OMIT (or with a number) raises TypeError, always.", "quantifier": "every number of rings, radius, separation, rotation, offset, list of omitted segments, table of coefficients, antialiasing factor and (for the phase, even) grid size", "why_tests_cant": "the lattice claim ranges over all numbers of rings, the coverage claims over all placements; a test looks at a few apertures", "anchors": ["falco/proper/prop_hex_wavefront.py prop_hex_wavefront", "falco/proper/prop_polygon.py prop_polygon", "falco/proper/prop_hex_zernikes.py prop_hex_zernikes"]}
{"id": "C127", "title": "Zernike formulas longer than 250 bytes", "statement": "The formulas that prop_noll_zernikes stores for prop_zernikes, prop_fit_zernikes and propcustom_zernikes (COMPACT format) evaluate to the Noll polynomial for every index up to 276. Violated: the array of strings has 250 bytes per entry and the rest of a longer formula is lost: index 277 and, in every radial order from 24 on, the modes of lowest azimuthal order raise SyntaxError, on every grid; indices 357 and 358 silently lose their angular factor, so both give the same map.", "quantifier": "all indices, grids, coefficients, pixels", "why_tests_cant": "a test tries a few low indices; the claim separates all indices up to the bound from an infinite set beyond it", "anchors": ["falco/proper/prop_noll_zernikes.py prop_noll_zernikes", "falco/proper/prop_zernikes.py prop_zernikes", "falco/zern.py propcustom_zernikes"]}
{"id": "C128", "title": "Fitting Zernike polynomials to a map", "statement": "prop_fit_zernikes on a square array returns coefficients that minimise the sum of squared differences between the map and the sum of coefficient times Zernike (Noll up to index 276, annular up to 22) over the pixels inside the circle and not masked; the remaining differences are orthogonal to each polynomial there; the coefficients depend linearly on the map; a map that is such a sum is reproduced, and its coefficients are returned if they are determined by these pixels; with FIT the fitted sum at every pixel is returned too. Violated: on arrays that are not square rows and columns are confused (a tilt of a 2 x 3 map is not fitted); XC or YC, both documented, raise UnboundLocalError; 277 or more polynomials raise SyntaxError. More than 22 with obscuration raise ValueError.", "quantifier": "all maps, masks, pupil radii, numbers of polynomials, obscuration ratios and square array sizes", "why_tests_cant": "optimality is a statement about all competing coefficient vectors, and recovery about all maps; tests on square arrays with the default centre cannot see the violations", "anchors": ["falco/proper/prop_fit_zernikes.py prop_fit_zernikes", "falco/proper/prop_noll_zernikes.py prop_noll_zernikes"]}
{"id": "C129", "title": "The 8th-order occulter", "statement": "prop_8th_order_mask multiplies the field (as seen in the output array, on even grids) by the mask it returns and changes nothing else of the wavefront. The mask is the square root of the squared amplitude profile 2/3 - sinc^3(u/3) + sinc(u)/3, u = pi e x, at the pixel's distance x from the centre in lambda/D, shifted and scaled to the requested transmissions: unless the profile is constant on the grid, the intensities lie between the requested minimum and maximum and take both. On even grids the central pixel has the minimum, and with transmissions 0 to 1 the intensities are in proportion to the squared profile, which is at most 4 u^8: the mask is of eighth order. Pixels at equal distance have equal values, the linear mask is constant along its other axis, an ellipse of ratio 1 is the circle. Violated: on odd grids the mask is centred half a pixel away from the pixel that PROPER treats as the centre, which is then no darker than its neighbour. A half width of 0 raises ZeroDivisionError.", "quantifier": "all even grid sizes (odd ones for the violation), fields, samplings, focal ratios, half widths, transmissions, and the linear, circular and elliptical kinds", "why_tests_cant": "the order of the null is a bound over all distances; tests evaluate one mask on one grid", "anchors": ["falco/proper/prop_8th_order_mask.py prop_8th_order_mask", "falco/proper/prop_sinc.py prop_sinc"]}
{"id": "C130", "title": "Integration of an image over detector pixels", "statement": "prop_pixellate on an even number of pixels: before the resampling, each pixel holds the absolute value of the integral, over the detector pixel centred on it, of the periodic band-limited function of which the image is a sample (every image is one); a constant image becomes that constant times the area of the detector pixel in input pixels. The output has int(n * sampling_in / sampling_out) rows and columns, each pixel the damped sinc interpolation of the integrated image at the corresponding place or 0 near the border; the centre pixel is the integral over the detector pixel in the centre. Images that are not square raise ValueError. Violated: the requested size n_out has no influence on the result; for odd sizes the integration is over squares that are n/(n-1) times too large (three pixels, a cosine and pixels twice as large: 0 is returned where the integral is not 0).", "quantifier": "all images and sizes, sampling ratios, requested sizes, with and without the C library", "why_tests_cant": "the integral is that of a continuous function and the equality concerns every image; tests compare one image with stored values", "anchors": ["falco/proper/prop_pixellate.py prop_pixellate", "falco/proper/prop_magnify.py prop_magnify"]}
{"id": "C131", "title": "Rectangles with rounded corners", "statement": "prop_rounded_rectangle should return the mask of a rectangle whose corners are quarter circles. Violated: whenever the radius of the corners is at most half the width or half the height, for every grid, sampling, size and place, the call raises an error and returns nothing: TypeError (the bounds of the slices are floating-point numbers), or IndexError where the circle of a corner lies outside of the array.", "quantifier": "all grid sizes, samplings, widths, heights, radii and centres", "why_tests_cant": "that no argument works is a statement about all arguments", "anchors": ["falco/proper/prop_rounded_rectangle.py prop_rounded_rectangle", "falco/proper/prop_ellipse.py prop_ellipse", "falco/proper/prop_rectangle.py prop_rectangle"]}
{"id": "C132", "title": "Writing an error map and reading it back", "statement": "prop_writemap refuses (ValueError) a map without SAMPLING and RADIUS_PIX and writes any other with its data unchanged, with RADPIX if the radius is given and PIXSIZE otherwise. Written with the sampling of the wavefront, or with the beam radius in its pixels, and applied by prop_errormap (C library, same even number of pixels, no shift) the map that comes back is the one written times the factor of the units, except for the first two and last rows and columns. Violated: the type of map stored in the file has no influence on how it is read; the centre is stored as half the number of rows for X.", "quantifier": "all maps, samplings, beam radii, even grid sizes from 4, units and factors", "why_tests_cant": "the identity concerns every map and pixel; tests write and read one", "anchors": ["falco/proper/prop_writemap.py prop_writemap", "falco/proper/prop_errormap.py prop_errormap", "falco/proper/prop_readmap.py prop_readmap"]}
{"id": "C133", "title": "Options of the DM calls", "statement": "prop_dm and propcustom_dm return the same map and do the same to the wavefront for all options whose flags are passed as True or not at all. The field seen is multiplied by exp(2 pi i/lambda * 2 h), h the height returned, unless NO_APPLY is on; nothing else changes. FIT uses commands that make the surface asked for at every actuator to better than 1e-15 whenever the influence function at the neighbouring actuators is symmetric and small enough; a call with both rotation orders, both or none of spacing and N_ACT_ACROSS_PUPIL, or an unsuitable influence function is refused (ValueError). prop_dm treats a switch passed as False like one not passed. Violated: propcustom_dm treats False like True; prop_dm with a rotation order passed as False (and none as True) always fails with UnboundLocalError; propcustom_dm fails with UnboundLocalError for the signs 'p', 'n', 'm' that the setup accepts.", "quantifier": "all wavefronts, surfaces, influence functions, centres, spacings and combinations of options", "why_tests_cant": "the agreement of two implementations and the refusals concern every combination of options; tests call with one", "anchors": ["falco/proper/prop_dm.py prop_dm", "falco/dm.py propcustom_dm", "falco/proper/prop_fit_dm.py prop_fit_dm", "falco/proper/switch_set.py switch_set"]}
{"id": "C134", "title": "DM surfaces that are not square", "statement": "For DMs of any number of rows and columns that cover as many pixels of the grid in X as in Y, both DM functions return at every covered pixel the superposition of the influence functions at the point of the DM seen there, zero elsewhere, with both back ends. Violated: a DM that covers more in one direction than in the other, hence every DM with different numbers of rows and columns and at least one pixel per actuator that does not fill the grid in its shorter direction, always raises ValueError.", "quantifier": "all numbers of rows and columns, grid sizes, samplings, spacings, tilts, influence functions, both back ends", "why_tests_cant": "that no such DM works is a statement about all sizes", "anchors": ["falco/proper/prop_dm.py prop_dm", "falco/dm.py propcustom_dm"]}
{"id": "C135", "title": "Pictures of hexagonally segmented mirrors", "statement": "get_support draws the mirror: within a segment marked 1, a fraction e of its half width from its flats, the value is at least 1 - 3(1-e)^1000 and above 1 by at most exp(-(1+e)^1000) per other segment; this far outside of all segments marked 1 it is at most exp(-(1+e)^1000) per segment, for every number of rings, gap from zero, grid, offset and list of segments; the mirror is apDia across along the rows and centred on pixel N/2 plus the offset. Violated: get_field ignores pistons and tilts (a real picture), draws the segments marked 0 instead of those marked 1, by default nothing, and cuts the picture at the next power of two.", "quantifier": "all numbers of rings, diameters, gaps, grid sizes, offsets, lists of segments, pixels", "why_tests_cant": "the bounds hold at every pixel of every mirror; tests compare a sum of pixels for one mirror", "anchors": ["falco/hexsegmirror.py add_hex, add_hex_segment, get_support, get_field"]}
{"id": "C136", "title": "Profiles of the layers of an HLC mask", "statement": "gen_fpm_surf_from_cube gives, at every pixel, the superposition of the stamps of the actuators, each in its place and scaled by command and gain, with negative values set to zero (actuators with an empty stamp or a gain below 1e-12 are left out); the profile is never negative. For a mask set up with the 3x3 influence function the profile is the bilinear interpolation of the actuator heights at half-actuator steps, with pixel 2k+3 at the position of actuator k; a mask that is not centred on a pixel is rejected with ValueError.", "quantifier": "all stamp cubes inside their array, commands, gains, resolutions and mask radii, all pixels", "why_tests_cant": "The stamps overlap, and a placement off by one pixel only shows in the interpolated values between actuators.", "anchors": ["falco/hlc.py:gen_fpm_surf_from_cube", "falco/hlc.py:fpm_inf_cube_3x3", "falco/hlc.py:setup_fpm"]}
{"id": "C137", "title": "Cosine basis of an HLC mask", "statement": "The ring modes made by setup_fpm_cosine are between 0 and 1, live in their annulus, and add up at every radius to one (near the centre) or to the window of the mask, so the layer with the initial commands is flat up to 1e-8 per ring. If 12 lobes suffice for all rings, the cube is made with all its modes. Violated: if a ring before the last needs more than 12 lobes, IndexError is raised, since the loop overwrites the number of modes per ring; with centering 'interpixel' every azimuthal mode is a multiple of a ring.", "quantifier": "all resolutions, mask radii, azimuthal sizes, centerings, pixels and radii", "why_tests_cant": "The rings are cut at radii that fall between pixels; tests see sums at the pixels of one grid only.", "anchors": ["falco/hlc.py:setup_fpm_cosine", "falco/hlc.py:gen_fpm_surf_from_cube"]}
{"id": "C138", "title": "Setting up the mask of an HLC in the Fourier layout", "statement": "Setting up a workspace with layout 'fourier' and coronagraph 'HLC' should end with the mask in place. Violated: setup_fpm_cosine and setup_fpm raise for every set of parameters (AttributeError, since falco.mask has no gen_annular_FPM, when the parameters are as required; 'lanczos3' always raises IndexError), so flesh_out_workspace raises for every such configuration; other layouts and coronagraphs are not affected.", "quantifier": "all configurations and influence-function names", "why_tests_cant": "A failing test would settle one configuration; that no configuration works is a statement about all of them.", "anchors": ["falco/hlc.py:setup_fpm_cosine", "falco/hlc.py:setup_fpm", "falco/setup.py:falco_gen_fpm", "falco/mask.py"]}
{"id": "C139", "title": "LUVOIR pupils", "statement": "falco_gen_pupil_LUVOIR_A_final draws each of the 120 segments (six rings of a hexagonal lattice without the centre and the six corners) exactly once, falco_gen_pupil_LUVOIR_B each of the 55 segments (four rings without the corners) exactly once. Unclocked, no segment leaves the array (B: for shears up to a fifth), each pixel is the part of it covered by the segments (A: times what the three struts leave open, at most 1), in Lyot-stop mode the annulus times the struts; with flagRot180deg the A pupil is turned about its nominal centre. Violated: flagRot180deg does not turn the B pupil (no effect with interpixel centering, a one-pixel displacement with pixel centering), and a clocked A pupil can leave its array, in which case the call raises (clocking 15 degrees, any even 200-260 points across).", "quantifier": "all beam sizes, centerings, shears, magnifications, gaps, strut widths and pixels; for the places of the segments also all clockings", "why_tests_cant": "A dropped or doubled segment, or one past the edge of the array, depends on size, centering, shear and clocking together.", "anchors": ["falco/mask.py:falco_gen_pupil_LUVOIR_A_final", "falco/mask.py:falco_gen_pupil_LUVOIR_B", "falco/mask.py:falco_hex_aperture_LUVOIR_A", "falco/mask.py:falco_hex_aperture_LUVOIR_B"]}
{"id": "C140", "title": "Pupils of custom hexagonal segments", "statement": "falco_gen_pupil_customHex should give the segments inside the circle of diameter OD, outside that of diameter ID, and dark along straight struts. What holds: without ID and struts the pupil is the picture of the segments given by get_support. Violated, since distance and angle are swapped: OD does not limit the pupil (pupils with any two ODs of 8 pixels or more agree to 1e-100); with an ID of 8 pixels or more the pupil is dark everywhere; struts of 8 pixels or more darken whole rings, in every direction; with pistons and no missingSegments the pupil is zero everywhere.", "quantifier": "all grids, beam sizes, diameters, gaps, rings, missing segments, offsets, struts and pixels", "why_tests_cant": "Each failure is one of all pixels and all diameters; a picture of one setting does not show for which ones the circles are lost.", "anchors": ["falco/mask.py:falco_gen_pupil_customHex", "falco/util.py:cart2pol", "falco/hexsegmirror.py:get_support", "falco/hexsegmirror.py:get_field"]}
{"id": "C141", "title": "Text options: accepted, implemented, consistent", "statement": "verify_key_values passes exactly when centering, coro, layout, estimator and controller are documented names in any case, stores them with the case folded (checking again changes nothing), and raises ValueError otherwise. With checked options every iteration runs an estimator (perfect or pairwise probing, square or rectangular probes as named) and the controller of that name, and the full model, compact model, its gradient and the slices of the Jacobian use the same type of mask. An iteration gets through its choices exactly if the estimator is not 'pwp-kf' (accepted, but raises ValueError or UnboundLocalError in every iteration), flagSVD is off (it reads Jacobian blocks that do not exist), 'ad-efc' is not combined with flagUseJac probing, and a Jacobian-based controller is not combined with a Roman layout for coronagraphs other than HLC/SPLC (ValueError). Violated: Jacobian and compact model do not agree about the size of the focal-plane mask at wavelengths off the centre for an HLC with layouts 'proper', 'roman_phasec_proper', 'wfirst_phaseb_proper' (compact scales it, Jacobian and AD gradient do not), nor for other coronagraphs with 'fpm_scale' (Jacobian scales, compact does not).", "quantifier": "all option strings, iterations, wavelengths, numbers of pixels; any case folding that is idempotent", "why_tests_cant": "the choices are spread over a dozen places; only going through all combinations of options shows that each accepted one is implemented and treated alike everywhere", "anchors": ["falco/setup.py verify_key_values", "falco/est.py wrapper, pairwise_probing", "falco/ctrl.py wrapper", "falco/wfsc.py loop", "falco/model/models.py full, full_Fourier, compact, compact_general, compact_reverse_gradient, _jac_middle_layer, write_jac_slices", "falco/model/jacobians.py lyot", "falco/plot.py singular_mode_spectrum_of_Efield"]}
{"id": "C142", "title": "Set-up of DMs and input fields, end of a run", "statement": "falco_configure_dm1_and_dm2 negates the influence function for inf_sign beginning with '-', 'n', 'm', keeps it for '+', 'p', and raises otherwise. The dead-actuator map marks exactly the actuators listed by number, the same ones whose Jacobian columns are zero; a number beyond the last actuator raises IndexError; violated: a negative number marks an actuator whose Jacobian column is not zero. DMs start from zero or from the given command. falco_gen_dm_stops can make a stop at DM2 always, at DM1 only if the user has created mp.dm1.full (AttributeError otherwise). falco_set_initial_Efields gives ones for every wavelength and subband by default, centres or crops given fields with another number of rows, raises IndexError when a wavelength is missing; violated: with the right number of rows nothing is checked. Coordinates in the Lyot plane are centred as documented. The results snippet is always written; flagSaveWS ends the run with UnboundLocalError without writing the workspace.", "quantifier": "all signs, actuator lists, DM sizes, flags, field stacks, array sizes, centerings", "why_tests_cant": "sizes, lists and flags are unbounded; the two uses of the list of dead actuators only disagree for particular numbers", "anchors": ["falco/setup.py falco_configure_dm1_and_dm2, falco_gen_dm_stops, falco_set_initial_Efields, compute_lyot_stop_coordinates", "falco/model/jacobians.py lyot", "falco/wfsc.py loop"]}
{"id": "C143", "title": "Bowtie focal-plane masks", "statement": "gen_bowtie_fpm for any opening angle between 0 and 180 degrees, without clocking: every pixel outside the first row and the last column is exactly the part in the outer disc times the part outside the inner disc times the parts outside of two opposite sectors of 180 minus the opening angle, up and down, whose corner is the centre of the mask. In the array that is made by default every pixel wholly within the annulus and strictly within the opening is 1, and every pixel wholly outside the outer disc, within the inner one or beyond the opening is 0. The same with any clocking when no edge of the turned sectors is passed within a sub-row and each of their rows that reaches the array meets it; violated: a bowtie turned by 90 degrees whose turned sector begins right of the array in one sub-row raises IndexError (120 degrees, 20 lambda/D). From 180 degrees on the mask is the plain annulus.", "quantifier": "all radii, pixel scales, opening angles, offsets, clockings, centerings, array sizes with the centre in the array; odd sub-sampling factors of at least 5 of the process", "why_tests_cant": "the sub-row scan must agree with the geometry for every angle and size; the refused clockings lie beyond the angles in the tests", "anchors": ["falco/mask.py gen_bowtie_fpm", "falco/proper/prop_irregular_polygon.py"]}
{"id": "C144", "title": "Interrupted calls", "statement": "Calls that change the commands, the list of DMs, the actuators in use or the pupil field for a while, for every behaviour of the camera and the models, so for every point at which an evaluation raises. When they return everything is as it was: pairwise probing (the commands of DMs in use and of the probing DM, mp.dm_ind), a grid search (all commands), set_utu_scale_fac (actuators), the field with a Zernike (pupil field, mp.full.zindex and zval_m; with PROPER mp.full.zval keeps the Zernike). When an evaluation raises nothing is undone: the probing DM keeps the probe of the failed image and stays in mp.dm_ind; a trial command stays applied; set_utu_scale_fac leaves the subset of actuators; the Zernike stays in the pupil field; the norms of subbands not reached are 1. A second call that returns does not undo this, except for the norms, which do not depend on the old ones.", "quantifier": "all evaluations (arbitrary functions of the commands and of a state outside that return or raise), all numbers of stars, subbands, probes and trials, all commands and lists of DMs; assuming that evaluations do not change the commands", "why_tests_cant": "the exception can come from any of the evaluations, and the tests have none that raises", "anchors": ["falco/est.py pairwise_probing", "falco/ctrl.py _efc, _ad_efc, _grid_search_efc, set_utu_scale_fac", "falco/imaging.py get_expected_summed_image, calc_psf_norm_factor", "falco/zern.py falco_get_single_sim_Efield_LamPolZern"]}
{"id": "C145", "title": "Simple error maps and smoothing", "statement": "gen_simple_psd_errormap for every size, power, figure and all random numbers: the map has the mean zero, and unless it is flat its RMS value is exactly the figure given. For even sizes its Fourier transform (middle as origin) is that of the random numbers times r^(-alpha/2), r the length of the frequency vector, times one positive number, so its power spectrum falls as r^(-alpha) on average. Violated: the documented peak-to-valley value is at least twice the figure, always; for odd sizes from 5 on the spectrum is not a function of r (the factors at (1,1) and (1,-1) differ for every alpha > 0). smooth: with a window of 1 to n points each value is the mean over the window around it (one more point before it for even windows) with zeros outside; constants are kept where the window is inside. Violated: at the ends a constant is lowered; with a window longer than the vector the result has the length of the window. Empty vectors and windows of no points raise ValueError.", "quantifier": "all sizes, powers, figures and random numbers; all vectors and window lengths", "why_tests_cant": "the map is random: the statements hold for every draw; the tests look at one size and one draw", "anchors": ["falco/util.py gen_simple_psd_errormap, smooth"]}
{"id": "C146", "title": "Files of thin-film tables", "statement": "gen_complex_trans_table keeps its two tables in files and takes a file of the right name instead of computing. For any number of processes, any parameters, any schedule of their file accesses from an empty directory, any of them cut off anywhere: a call that returns, returns tables computed for the parameters of some process with the same file names; so if equal names mean equal parameters, it returns the right tables. Calls one after another never fail while no file is cut off; a call cut off anywhere but inside np.save does no harm: the next call does what the first would have done. Violated: the names leave out d0fac, the wavelengths of the subbands and the inner points of the thickness vectors and truncate the centre wavelength to whole nanometres, so after one call, calls with other values of these return the tables of the first, even of another shape; a call cut off inside np.save leaves a part of a file and, for all later processes and schedules, that part stays and no call needing it ever returns; of two identical processes started together one can raise.", "quantifier": "all parameters, film functions, directories, numbers of processes, schedules and points at which a process is cut off", "why_tests_cant": "the result depends on the history of the directory and on the interleaving of processes; tests make one call in a directory with given files", "anchors": ["falco/thinfilm.py gen_complex_trans_table"]}
{"id": "C147", "title": "Values kept once they are made", "statement": "HLC in the Fourier layout, for every history of commands, Jacobians and evaluations: until the first Jacobian the compact model uses the mask of the present commands of DMs 8 and 9; the full model (without a cube of its own) always does; a slice of the cube of masks equals the mask made for that sub-band alone, with the same IndexError otherwise. Violated: from the first Jacobian on, the compact model and every later Jacobian use the mask of the commands at the time of that Jacobian, whatever is set later. Fit of a surface by least squares: the first fit solves with the DM's own actuators and influence function; surfaces of another shape raise ValueError and leave no trace. Violated: after the first fit, in every history, another influence function has no effect, and with another number of actuators every fit raises.", "quantifier": "all histories of settings and calls, all tables, masks, sub-bands, surfaces and influence functions", "why_tests_cant": "it needs all histories: the tests build a new object for each case", "anchors": ["falco/model/models.py compact, full, jacobian", "falco/model/jacobians.py lyot", "falco/hlc.py gen_fpm_from_LUT, gen_fpm_cube_from_LUT", "falco/dm.py make_dm_prefilter_attribute, fit_surf_with_dm_lsq_wrapper, fit_surf_with_dm_lsq"]}
{"id": "C148", "title": "Choice of the FFT library", "statement": "prop_use_fftw() turns FFTW on for this session and all sessions started later until it is disabled (Intel's library not being chosen); prop_use_fftw(DISABLE) brings NumPy's FFT back for this session and later ones when no file of Intel's library is there, until a library is chosen or an error map is made; prop_use_ffti() turns Intel's library on for this session and later ones, whatever prop_use_fftw() does; a session starts with Intel's library, FFTW or NumPy according to the two files of the home directory, and these say what the last call of each switch said. From an empty home directory and with no directory given, no propagation ever stops for want of a library. The choice changes no result. Violated: making an error map turns FFTW on for this and all later sessions (or, without pyfftw, turns Intel's library off in this one); DISABLE of one of the two leaves the other for the next session; a directory given for Intel's library is not kept, so every later propagation stops with SystemExit, in later sessions too.", "quantifier": "all machines, all histories of imports, switches and error maps in any number of sessions, all arrays", "why_tests_cant": "it needs all histories over several sessions and machines with and without the libraries; the tests run in one session on one machine", "anchors": ["falco/proper/__init__.py use_fftw, use_ffti", "falco/proper/prop_use_fftw.py prop_use_fftw", "falco/proper/prop_use_ffti.py prop_use_ffti", "falco/proper/prop_fftw.py prop_fftw", "falco/proper/prop_ffti.py mkl_fft2, fft2, ifft2", "falco/proper/prop_begin.py prop_begin", "falco/proper/prop_psd_errormap.py prop_psd_errormap"]}
{"id": "C149", "title": "Pupils of the Roman telescope", "statement": "The pupil of 2020 moves as one body: a point is clear in the pupil at rest exactly if the point where shear, magnification and clocking move it is clear in the changed pupil, unless the clocking brings an angle of a tab to a multiple of pi (the vertices of the tab sectors, hidden by the secondary mirror, left out). A pixel is in the sector of a tab exactly if its direction lies between the two angles, after any number of turns. Every pixel is in [0,1], and is 1 or 0 where all the shapes agree; a shear moves the image, value by value; the array holds the whole pupil; larger paddings only block; the turned pupil is the pupil turned by 180 degrees (centre between pixels; centre on a pixel in the Lyot stop mode); it stops exactly with ValueError for a Lyot stop without both diameters and IndexError for fewer than six strut widths. The mirrors and struts of the pupil of 2018 move as one body. Violated: a tab that ends exactly at a whole turn is not drawn; with the centre on a pixel the turned pupil takes the tab sectors from one row and one column off; in the pupil of 2018 the tabs do not move with the clocking (turned by 180 degrees the top one is lost), with the centre between pixels only an even integer Nbeam with nothing changed the size works (TypeError, IndexError otherwise), and the caller's dictionary is written to.", "quantifier": "all shears, positive magnifications, clockings, paddings, samplings, both centerings, all images of the single shapes, all points and pixels", "why_tests_cant": "it needs all real clockings and all points of the plane; the tests compare areas of a few pupils", "anchors": ["falco/mask.py falco_gen_pupil_Roman_CGI_20200513", "falco/mask.py falco_gen_pupil_WFIRST_CGI_180718", "falco/proper/prop_ellipse.py prop_ellipse", "falco/proper/prop_rectangle.py prop_rectangle"]}
{"id": "C150", "title": "Complex occulters from maps of thicknesses", "statement": "Every pixel of calc_complex_occulter is the film of its own two thicknesses, as calc_complex_trans_matrix gives it for them alone: pixels of equal thicknesses have equal values, in one mask or in two, whatever the other pixels are. calc_complex_trans_matrix returns at row j and column i the film of dielectric j on metal i, on titanium where there is at least 0.1 nm of metal, with the indices of the formulas and tables of the four materials at the wavelength; its shape is that of the two vectors. For every wavelength from 0.2 to 3 microns, angle below 90 degrees and thicknesses that are not negative no pixel amplifies. Without metal the thickness of titanium does not matter. Maps of one shape are refused exactly with TypeError (wavelength not positive, angle or titanium negative) or ValueError (unknown material, polarisation other than 0, 1, 2); maps of different shapes are never accepted; maps without pixels always are. Violated: FUSED_SILICA and FUSEDSILICA are refused (a misplaced quote makes them one name); a pixel of unknown thickness (NaN) becomes opaque without an error; beyond the last wavelength of a table the index is silently that of the last row.", "quantifier": "all maps (any shape, numbers or NaN), all vectors of thicknesses, all scalars and names, all tables of materials with positive indices, every order of the unique columns", "why_tests_cant": "it needs all combinations of thicknesses in a mask and all wavelengths; the tests check one small mask at one wavelength", "anchors": ["falco/thinfilm.py calc_complex_occulter", "falco/thinfilm.py calc_complex_trans_matrix", "falco/thinfilm.py solver"]}
{"id": "C151", "title": "Bowtie Lyot stop", "statement": "gen_bowtie_lyot_stop draws the annulus between the diameters ID and OD of which two wedges, ang degrees wide, are left open upwards and downwards (the whole annulus from 180 degrees on, nothing at zero), magnified by magfac, turned anticlockwise by clocking and moved by the shear as one body: for all arguments and both centerings a place, and a pixel by its centre, is clear exactly if it is a moved place of the stop at rest; where the images of the shapes are one and zero, so is the returned mask, and it never amplifies. The stop at rest is symmetric about both axes, in polar coordinates it is |angle from the vertical| < ang/2, and it grows with ang and OD and shrinks with ID. The array has an even size and, for OD up to one pupil, holds every clear place within half a pixel of a pixel. A missing Nbeam, ID, OD or ang is a KeyError, Nbeam = 0 a ZeroDivisionError, another centering an UnboundLocalError; all else is drawn.", "quantifier": "all dictionaries of inputs (angles not negative, positive magnification), all places of the plane, all pixels", "why_tests_cant": "it needs every place of the plane for every angle, clocking, shear and magnification; the unit tests do not call it", "anchors": ["falco/mask.py gen_bowtie_lyot_stop", "falco/mask.py falco_gen_bowtie_LS"]}
{"id": "C152", "title": "Recorded agreement of measured and expected changes of the field", "statement": "out.complexProjection and out.complexCorrelation: over a run of any length row i holds, for every subband, |sum sim*meas| / |sum sim^2| and |sum sim*meas| / sqrt(|sum meas^2| |sum sim^2|) for the changes from iteration i to i+1, over the pixels whose estimate has changed; all other entries stay zero, the rows suffice and nothing fails with two or more pixels. If the measured change is c times the expected one (squares not cancelling) the values are |c| and 1; they ignore unchanged pixels and a common factor of the measured change; without any change they are NaN. With a common phase of each change they are the projection and the correlation of complex vectors. Expected fields are those of the compact model for the first star and piston; with piston alone, column s of the estimate is subband s of the first star. Violated: the complex conjugate is missing, so the correlation exceeds every bound, and both values can be NaN for two equal changes; with further Zernikes, subband 1 is compared with a Zernike mode of subband 0; a dark hole of one pixel ends the run with a ValueError.", "quantifier": "all sequences of estimates and simulated fields (any number of pixels, subbands, iterations), all complex changes", "why_tests_cant": "it needs all complex vectors and all histories; the one test compares a single value, for which its comment notes that Matlab gives another", "anchors": ["falco/plot.py delta_efield", "falco/wfsc.py loop", "falco/wfsc.py compute_simulated_efield_for_delta_efield_plot", "falco/setup.py init_storage_arrays", "falco/setup.py falco_set_jacobian_modal_weights"]}
{"id": "C153", "title": "Spectrum of singular modes", "statement": "singular_mode_spectrum_of_Efield: for any number of pixels, modes and actuators on the four DMs the recorded scale alpha2 is the response of the strongest actuator; the recorded intensities add up to at most the estimated intensity; those with singular values other than zero add up to exactly what the linear model can remove at best over all commands; the control step with regularisation b leaves the fraction (b/(s^2+b))^2 of each, which with b relative to alpha2 is a function of the plotted abscissa s^2/alpha2 alone; the squares of the singular values add up to the responses of all actuators, so the largest abscissa lies between one and the number of actuators; the spectrum does not depend on which decomposition numpy returns. Each call adds one entry to each list. Violated: with AD-EFC (no Jacobian) and the spectrum switched on the run ends with an AttributeError, without actuators with a ValueError.", "quantifier": "all Jacobians (any number of pixels, modes, actuators), all complex fields, all regularisations, all valid decompositions", "why_tests_cant": "it quantifies over all complex Jacobians, all commands and all decompositions; the tests do not call it", "anchors": ["falco/plot.py singular_mode_spectrum_of_Efield", "falco/wfsc.py loop"]}
{"id": "C154", "title": "What probing records, with and without plots", "statement": "pairwise_probing: for any number of stars, subbands and pairs of probes, any camera (each exposure with its own noise) and any probes, ev.imageArray holds for each subband the unprobed image taken for the first star and the probed images taken for the last star, ev.dm1/dm2.Vall the commands with which each was taken (for the DMs that are controlled or probe), and ev.Im the weighted sum of the unprobed images. Switching the plots on changes neither the estimates, the incoherent intensities, the image nor the means; one figure per star and subband shows the images without negative values. Violated: the plots replace the negative values of the recorded probe images by zero, so that with detector noise the recorded data depend on mp.flagPlot; with one pair of probes the plots end the run with an IndexError, with none with a ValueError; if DM 2 probes, the figure shows the negative command of DM 1 instead of the probe; ev.IprobedMean is the mean times the number of stars and subbands; ev.ampSqMean is that of the last star and subband only.", "quantifier": "all numbers of stars, subbands, pairs of probes, pixels and actuators, all cameras, probes and estimators", "why_tests_cant": "it compares the records of two runs for every camera noise and every number of stars and subbands; the tests run without plots and with one star, and check only estimates", "anchors": ["falco/est.py pairwise_probing", "falco/plot.py pairwise_probes", "falco/plot.py log10nonneg"]}
{"id": "C155", "title": "Deep copies of configurations", "statement": "copy.deepcopy of a configuration, or of a part of it, ends whatever objects refer to each other, changes no existing object, and gives an object from which every attribute path reads (lazy values evaluated) what it read from the original at that time, whatever is done afterwards to the original; nothing done to the copy changes what any earlier object reads. Paths of the copy lead to new objects only, and two paths meet in the copy exactly if they meet in the original (lazy values excepted), also through the names of lazy expressions: in a copy of a whole configuration the name mp is the copy. For a part such as mp.dm1.compact = deepcopy(mp.dm1) made in flesh_out_workspace, the lazy values of mp.dm1.compact read mp.dm1.compact under the name mp.dm1, and a copy of the whole configuration under the name mp. Violated: later changes of mp therefore reach the lazy values of mp.dm1 but not those of mp.dm1.compact.", "quantifier": "every configuration (any nesting, sharing, cycles and lazy expressions), every part of it, every attribute path and every later change of either side", "why_tests_cant": "configurations are cyclic graphs of any size (lazy expressions refer to the configuration); the unit tests read a few attributes of one configuration", "anchors": ["falco/config/Eval.py: Eval.__deepcopy__", "falco/config/Object.py: Object", "falco/setup.py: flesh_out_workspace (dm1.compact, dm2.compact)"]}
{"id": "C156", "title": "Snippet file of a run at every crash point, and its plots", "statement": "wfsc.loop writes out to <runLabel>_snippet.pkl after every iteration. For every run and every point at which the process ends: before or within an iteration the file holds exactly what the complete iterations stored - commands, throughputs, measured and estimated intensities, regularisations, and zeros after them except for the intensity of the last control step's image - and nothing of the interrupted one; after the last save it equals out in memory. plot_trial_output_from_pickle can plot every such file: as many points as out.Nitr + 1 (regularisation: out.Nitr), zeros for iterations not made, the command before iteration 1, and for complete runs the final command. Violated: the file is emptied before it is written, so that a crash while writing loses what earlier iterations had saved and the file cannot be read; for an unfinished run the figure of the final DM commands shows zeros; a run that ends in its first iteration leaves the file of an earlier run with the same label, or none.", "quantifier": "all runs (any estimator, controller, number of iterations), every crash point, every content of the file before the run", "why_tests_cant": "it quantifies over all crash points; the tests run loops to their end and do not read the file", "anchors": ["falco/wfsc.py: loop", "falco/plot.py: plot_trial_output, plot_trial_output_from_pickle", "falco/setup.py: init_storage_arrays"]}
{"id": "C157", "title": "Table of a PROPER prescription (prop_run with TABLE)", "statement": "With TABLE, prop_run prints after each wavelength one line per prop_lens and per prop_propagate made since the prescription's last prop_begin, in the order of the calls, never more than 1500: a lens line gives the sampling behind the lens, the Gaussian beam's diameter at it, the focal length passed and the distance to the new waist over that diameter; a propagation line gives the distance passed and the sampling after it. Asking for the table never changes the wavefronts, and up to 1500 surfaces with plain names it raises nothing; a prescription with several wavefronts computes each as if it were alone. Violated: the number printed as beam diameter of a propagation is the beam's radius, so that a lens placed there reports twice as much; a second prop_begin drops the lines of everything before it; more than 1500 surfaces raise IndexError and a name with a non-ASCII character raises, only with TABLE; names are printed as b'...'; a prescription that reuses the wavefront of an earlier run prints propagations as lenses with that run's focal lengths.", "quantifier": "all prescriptions (any sequence of calls on any number of wavefronts, of any length), grids, beams, names and earlier contents of the lists", "why_tests_cant": "it quantifies over all prescriptions and histories of the module's lists; no test prints a table", "anchors": ["falco/proper/prop_run.py: prop_run", "falco/proper/prop_table.py: prop_table", "falco/proper/prop_begin.py: prop_begin", "falco/proper/prop_lens.py: prop_lens", "falco/proper/prop_propagate.py: prop_propagate", "falco/proper/prop_get_beamradius.py: prop_get_beamradius"]}
{"id": "C158", "title": "Shifts, half spectra and transforms of falco.mkl_fft", "statement": "fftshift moves the sample (r, c) of the first two axes cyclically by half of each axis (rounded down) plus the additional shifts, the first number along the first axis: always without additional shifts if no axis has length 1, and for shifts up to half an axis forwards and, backwards, one and a half times an even length or less than half an odd one. fft2 and ifft2 of a complex array overwrite it with numpy's transform (orthonormal for norm 'ortho') and return that, centered; ifft2 of an array overwritten by fft2 restores it. cce2full completes what rfft2 returns for a real square array of even size to numpy's fft2. Violated: ifft2 of what fft2 returns is not the original array, though both are documented as numpy's; real arrays are refused by fft2; further axes are not shifted and asking for particular axes raises NameError; an axis of length 1 comes back with two samples, larger backward shifts of odd axes arrive one sample too far or with one sample too many, larger forward shifts return longer arrays or raise IndexError; cce2full raises ValueError for odd sizes except 1 and 5 and repeats a column for 5; rfft2 ignores norm; irfft2 refuses everything rfft2 returns.", "quantifier": "all array sizes (any number of axes for the shift), entries, shifts and normalisations", "why_tests_cant": "it ranges over all sizes, entries and shifts; no test imports the module, which needs the MKL library", "anchors": ["falco/mkl_fft.py: fftshift, cce2full, proper_fft2, fft2, ifft2, mkl_rfft2, rfft2, irfft2"]}
{"id": "C159", "title": "Merging values into a configuration", "statement": "o.merge(**kwargs), at every nesting level of dictionaries: a leaf given has the given value afterwards, a leaf about which the arguments are silent keeps its value, and every leaf comes from one of the two; after any sequence of merges each leaf has the value of the last one that mentions it. Names not mentioned read as before by field and by index, attributes assigned by field syntax do not change, and merging arguments without lists twice is merging them once. Violated: lists are appended instead of replaced, twice when merged twice; nested objects (mp.dm1, every mapping of a yaml file) are not merged but replaced by the given dictionary, so that the other parameters are gone and none can be read by field syntax; a parameter assigned by field syntax hides what is merged later.", "quantifier": "all configurations, all nested arguments, all sequences of merges", "why_tests_cant": "it quantifies over all shapes of nested dictionaries and all sequences of merges; no test calls merge", "anchors": ["falco/config/Object.py: Object.merge, Object.__getattr__"]}
{"id": "C160", "title": "Self-images and the wrapping window of prop.ptp", "statement": "prop.ptp commutes with cyclic shifts of the field, so that light leaving the window on one side comes back on the other. A field with a period of p samples in both directions, p dividing the number of samples (period a = p dx), comes back exactly after every multiple of 2 a^2/lambda (Talbot's self-images), and for even p is shifted by half a period in both directions half-way between them. Violated: every field, periodic or not, comes back after 2 w^2/lambda for the width w of the window, instead of spreading.", "quantifier": "all square grids (even and odd), fields, periods, widths, wavelengths and distances", "why_tests_cant": "it quantifies over all fields and a continuum of distances", "anchors": ["falco/prop.py: ptp", "falco/util.py: angular_spectrum_transfer_function"]}
{"id": "C161", "title": "Polar coordinates and angles in degrees", "statement": "util.cart2pol returns the polar coordinates of each point, the radius first, with the angle in (-pi, pi]; they are the only ones, except for the angle of the origin. Numbers and arrays mix; two arrays of different shapes are refused with ValueError, lists with TypeError. radial_grid, azimuthal_grid and radial_grid_squared of an axis of N samples are N by N, and their entry in row i and column j belongs to the point (axis[j]/xStretch, axis[i]/yStretch); anything else than an array of one dimension and two numbers is refused with TypeError. Violated: the axis is documented, and checked, as any array_like, but a list is always refused. sind and cosd of a number have period 360 and the values of the sine and cosine in degrees. Violated: they are documented for arrays but refuse every array that does not have exactly one entry.", "quantifier": "all numbers, arrays of any shape, axes, stretches other than 0 and angles", "why_tests_cant": "it quantifies over all real arguments and shapes", "anchors": ["falco/util.py: cart2pol, sind, cosd, broadcast, azimuthal_grid, radial_grid, radial_grid_squared", "falco/check.py: oneD_array, real_scalar"]}
