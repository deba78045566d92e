# Design

This directory contains a Lean 4 model of parts of the Merlin++ accelerator library
(`/repo/Merlin++`) and machine-checked proofs about that model.
Properties are listed in `properties.jsonl`; the mapping from property to theorem is in
`MANIFEST.json`; mutation experiments are in `seeded/LOG.jsonl`.

## 1. Layout and method

One directory per subject below `lean/Verif/`.  Each contains up to four files.

| file | content |
|---|---|
| `Model.lean` | the C++ functions, transcribed one by one as total computable functions; each definition cites file and lines |
| `Spec.lean` | the specification, written without using the model |
| `Lemmas.lean` | helper lemmas |
| `Properties.lean` | the property theorems, each followed by an `example` with a concrete case meeting its hypotheses, and `#print axioms` |

`Verif/Common/Outcome.lean` has the result type used where C++ code can fail:
`ok value`, `throw exception`, `ub` (undefined behaviour: null or past-the-end access,
uninitialised reads, non-termination where noted).  Undefined behaviour is never given a convenient value.

Proof shapes:

* *algebraic law or round trip* (e.g. write then read a table);
* *invariant* by induction over an arbitrary list of operations;
* *refinement* of the C++ data structure to a simple mathematical object (e.g. five rotation classes to 3x3 matrices);
* *decision logic* (e.g. aperture checks equal to set membership).

Where the code violates a property, the negation is proved with a concrete witness
(`theorem ..._violated` or `..._counterexample`), and the strongest true part is proved
under the exact side condition (suffix `_partial`).  Both are listed in `MANIFEST.json`.

## 2. Trusted base

* The Lean 4.33.0 kernel and the part of Mathlib that is imported (its theorems are kernel checked too).
* Axioms: each property theorem is followed by `#print axioms`; only `propext`, `Classical.choice` and `Quot.sound`
  may appear.  No axiom is declared here; no `sorry`, no `native_decide`, no `bv_decide`.
* The transcription from C++ to Lean, made by reading.  It is not checked mechanically.  Every definition cites its source lines.
* Modelled: only the functions cited in the `Model.lean` files.  Not modelled: everything else, in particular
  physics process models (scattering, wakefields, synchrotron radiation), random number generation, file-system access,
  stream formatting of floating point numbers, memory allocation and object lifetime (except where stated), threads.
* Simplifications used throughout:
  * `double` is replaced by exact numbers: an arbitrary commutative ring, field or linearly ordered field `K`, as the code needs,
    or the rationals for concrete cases.  Rounding, overflow, NaN and infinities are outside the model.
    `fequal(x,y)` (equality up to machine epsilon, `utils.h`) is modelled either as a tolerance test or as exact equality;
    each model says which.
  * `int` and `size_t` are unbounded integers or naturals except where wrap-around matters (then it is modelled).
  * `std::string` is `List Char`; `std::vector`, `std::list` are `List`; `std::map`, `std::set` are association lists or
    duplicate-free lists with the ordering made explicit where it matters.
  * virtual dispatch on user-supplied objects is modelled by function parameters or by a record of responses.
  * `assert` is treated as active (a failing assert is an abort, i.e. an error outcome) only where stated.

## 3. Properties

For each property: what is modelled, how it is proved.

| id | model | proof |
|---|---|---|
| C01 | `DelimitString`, constructor and `Match` of `StringPattern` on character lists | soundness against an inductive glob relation; induction over the literals |
| C02 | same | violated (`"*a"` does not match `"aa"`); partial: complete for literals and for patterns ending in `*` (leftmost search is optimal) |
| C03 | same, constructor recursion for `\|` | splitting of a joined list, then unfolding `Match` |
| C04 | `operator<<` | round trip `DelimitString(print p)`; violated for OR patterns |
| C05 | `DataTable` as ordered columns with typed cells; all mutators | invariant by induction over operations, exceptional exits included |
| C06 | same | frame theorem for the cell update |
| C07 | same | case analysis; violated for the variadic `AddRow` (partial row remains) |
| C08 | `DataTableWriterTFS::Write`, `DataTableReaderTFS::Read`, `split_line`, `type_conv` on character lists; printing/parsing of doubles is a parameter with the round-trip law as hypothesis, integers printed in decimal | round trip by induction over headers, columns and rows |
| C09 | `split_line` | automaton induction |
| C10 | reader with explicit `ub` outcome | characterisation; violated for empty input (`words[0]` of an empty vector); partial for input with a header |
| C11 | `ring_iterator` as index with wrap | arithmetic mod n |
| C12 | `NumericalRange` over a linear order | case analysis; characterises the sentinel |
| C13-C16 | lattice as list, iterators as indices | list lemmas; C16 violated for lattices with more than one element |
| C17 | `InstallModelElement` on a list of (name, length) | arithmetic over an ordered field |
| C18 | the five rotation classes and their double dispatch | refinement to 3x3 matrices over a commutative ring, `cos² + sin² = 1` as invariant |
| C19, C20 | `Transform3D`, `Transform2D` | ring identities |
| C21 | `SequenceGeometry` over an abstract group of transforms | telescoping products; violated when going backwards inside one sub-frame |
| C22 | `CHPath` parsing with `find` results truncated to `int` | characterisation by number of dots; violated for ids with fewer than two dots |
| C23 | constructor table as ordered map, `FindCtors` and the query loops | refinement to a filter; violated by the early `break` |
| C24 | `LinearFBSystem` with its queue | invariant on the queue, induction over pulses |
| C25, C26 | BPM buffers and offsets | state update; C25 and the default-buffer clause violated |
| C27 | klystron and cavities over complex phasors | sums; vector-sum mode violated |
| C28-C30 | process list and step loop | stable sorted insertion; fuel-free well-founded stepping; C29 violated |
| C31, C32 | component integrator and tracker state machine | induction over step lists; `TrackStep` return value violated |
| C33, C34 | tracking loops as event traces | trace equality; C33 violated with patches |
| C35, C36 | aperture predicates over an ordered field | nonlinear arithmetic; octagon and interpolated variants violated |
| C37, C38 | bisection and segment interpolation | loop invariant of the bisection; end point of equal spacing violated |
| C39-C42 | bunch statistics over a field | running-mean invariant; C40 and C42 violated |
| C43 | particle distribution as list splitting | list arithmetic |
| C44 | `Dispose` and the merging loop of `Finalise` | counting invariant; violated in two modes |
| C45, C46 | survivor/lost partition with index list | filter lemma; C46 violated |
| C47, C48 | multipole expansion as coefficient list over a commutative ring with conjugation | polynomial evaluation |
| C49, C50 | triangular storage, sparse map | injectivity of the offset; double sum rearrangement |
| C51 | `Hist` | counting |
| C52 | transport matrices with the trigonometric values as parameters or real functions | matrix identities; solenoid at zero field violated |
| C54 | repository as a set | filter; `Find` reads an uninitialised flag |
| C55 | variadic `AddRow` on the same table model | induction over the columns |
| C56, C57 | `ExtractComponents`, `GetIndexes`, beamline index | filter and positions; C57 violated by `InstallModelElement` |
| C58 | lift of `Transform2D` to `Transform3D` | ring identities; violated, exact condition for agreement |
| C59 | handles and counters of `Rotation3D` | counting invariant over arbitrary programs |
| C21, C60, C61, C62 | geometries as functions, sequences as lists of sub-geometries over a group of transforms | concatenated moving frame; induction over the sub-frames; nesting by an inductive predicate; real trigonometry for arcs |
| C63, C64, C65 | a frame with the list of its super-frames | induction over the hierarchy |
| C66, C67, C68 | channels as read and write functions on a machine state; queue as a list | induction over pulses with the contents of the queue as invariant |
| C69 | Random | run over arbitrary engine, agreement of states |
| C70, C71, C72 | Monitor | history specification |
| C73 | `Tracker`: state machine of `ComponentTracker` | one-call lemmas |
| C74 | `Tracker.addIntegrator`, `prepare` | induction over registrations and class chain |
| C75 | Processes: set/act/limit of eight processes, V | measure: boundaries ahead + length/δ; invariant Static/Dyn |
| C76 | Processes: Wake | induction over the steps taken |
| C77 | Processes: Rad | induction over the steps taken |
| C78 | Processes: Spin | induction; non-termination invariant |
| C79 | Processes: DeltaT | induction over the steps taken |
| C80 | Processes: Hel, Mon | count; concrete violation |
| C81 | Processes: Coll | induction over the steps taken |
| C82 | Processes: Coll | chain of intervals; concrete violation |
| C83 | Processes: Divider | induction over increments |
| C53 | `AcceleratorModelConstructor`, its stack, lattice, repository and indices | simulation by single steps, induction over the calls; round trip tree → calls → tree |
| C84, C85 | Neville's table, window selection, remembered segment; array constructor | polynomial identities on coefficient lists, uniqueness by root counting; search loops |
| C86, C87 | collimator jaws over an ordered field | nonlinear arithmetic; taper and entrance setters violated | |
| C88, C89 | table of rows, search, gathering and cleaning for drifts | list splitting; composed with C36; several violations | |
| C90 | Tracking: run, cont, perform, doRecord | trace equalities by induction over the frames met by the loop |
| C91 | Tracking: reversedLine | negation for all lattices with two frames or more |
| C92 | Multipole: highest, lowest, getCoefficient | induction over the expansion; negation with witness |
| C93 | LinMap: driftVec, driftCov4, driftCov6, applyPlanes, applyDp | case analysis over the cells, ring |
| C94 | LinMap: Obj | negation for all maps |
| C95 | `Transport`: dense matrices over the reals | initial value problem, algebraic laws |
| C96 | `Transport`: chromatic matrices | derivative with respect to the momentum deviation |
| C97 | `Transport`: cavity matrices | determinants |
| C98 | `Transport`: sparse maps | equality of two implementations |
| C99 | Bunch/Model.lean | affine mean lemma; algebra |
| C100 | Bunch/Model.lean (`genLoop`, draws as a sequence, fuel) | induction over the draws; accepted draws as an inductive relation |
| C101 | Bunch/Model.lean (`output`, `input`, lines as records) | induction over the rows |
| C102 | Bunch/Text.lean (characters) | takeWhile/dropWhile of digits; the printed text equals that of a number with a longer exponent |
| C103 | Bunch/Model.lean | direct |
| C104 | Bunch/Model.lean | algebra |
| C105 | `Beam/Model.lean`: `couplingMatrix` | cases of the sign of the determinant, then the entries |
| C106 | `Beam/Model.lean`: `normalTransform`, `toSigma` | rows of the product, action on the diagonal, entries |
| C107 | `Beam/Model.lean`: `toBeam`, `decouple`, `couplingFactor` | dispersion removed exactly, one pass of decoupling, hyperbolic functions for the factor |
| C108 | `Beam/Model.lean`: `particle`, `scale` | covariances under affine maps of samples |
| C109 | `LossMap/Model.lean`: `temperature` | fold over the regions |
| C110 | `LossMap/Model.lean`: `disposeDetailed` | induction over the losses |
| C111 | `doCollimation`, `retrack` | refinement: records = first steps outside; three violations |
| C112 | `countTurn` | fold = count |
| C113 | `setNextS`, `doProcess` | induction over steps |
| C114 | `scatterLoop` | induction over the loop; violated |
| C115 | `scatterLoop` | induction over the loop; violated |
| C116 | `idxStep`, `destroy` | ownership invariant; violated |
| C117 | `MatrixMap/Model.lean`: `transformMoments` | covariance under linear maps; violated below three degrees of freedom |
| C118 | `MatrixMap/Model.lean`: `withMomentum`, `rescaleMoments` | change of reference commutes; violated |
| C119 | `MatrixMap/Model.lean`: `mulAssign` | associativity of sums |
| C120 | `MatrixMap/Model.lean`: `applyRdp`, `rdpMoments` | reduction to C117 |
| C121 | Support structures as state machines with cached transformation and flags | invariant by induction over the operations |
| C122 | Girder transformation over reachable transformations and reals | composition laws, derivatives at zero |
| C123 | Rotation of spins over the reals | Rodrigues form about a unit axis, derivatives, trigonometric addition |
| C124 | Spin process for one particle with fringe fields | scaling of the normalised field; witness with half and full turns |
| C125 | Spin bunches as two lists | simulation of a list of pairs by induction over the operations |
| C126 | `Slices/Model.lean`: `SBunch.getMoments`, `getProjectedMoments`, `getCentroid`, `addParticle` | law of total covariance against clouds of point charges |
| C127 | `SBunch.adjustRefMomentumToMean`, `adjustRefTimeToMean`, `adjustCentroid` | negations with witnesses; characterisation of what happens to each slice |
| C128 | `rotateMoments`, `STransform.apply`, `particleApply` | slice transformed represents the transformed cloud |
| C129 | `Slice.write`, `Slice.read`, `SBunch.output`, `SBunch.ofFile` | round trip by induction over slices; acceptance by counting numbers |
| C130 | `makeDistribution`, `constructBunch` | telescoping sum, reflection symmetry |
| C131 | `scan`, `binOf`, `fromParticles` | counting over the grid; bounds of the floor |
| C132 | `smear`, `drawAll`, `toParticles` | the slice of largest ct is undefined; sums of shifted particles |
| C133 | MultiNormal | square of the triangular decomposition by invariant over its loops, acceptance of positive definite matrices by solving the triangular system for a vector with the pivot as its form, moments by linearity of expectation |
| C134 | Wake | loops over sorted bunches related to filters by intervals, induction over bins |
| C135 | Wake | invariant of the loop over slices, wakes as sums over particles of slices ahead, algebra of the reference momentum |
| C136 | Wake | negation for every potential of finite range |
| C137 | Distribution | invariant of the loop with bins of `Histogram` |
| C138-C140 | Verif/SliceWake: PrepSlices, PrepLWake, GetSliceCentroid, AWK, ApplyWakefield of SMPWakeFieldProcess.cpp | induction over the loop with an excess charge; sums over the rest of a list; algebra of one kick |
| C141-C142 | Verif/ModeWake: CollimatorWakeProcess.cpp over the reals with complex powers | polar form, derivative of complex powers along lines, covariance under unit complex numbers |
| C143-C145 | Radiation: loss, emission, reference, schedule of steps of SynchRadParticleProcess over the reals | identities between square roots; sum over the bunch; induction over sequences of steps |
| C146-C147 | Survey: bisection for the edge, points of the three modes, loop over the line | invariant of the bisection; closed forms of the loops; induction over the line |
| C148-C149 | RFMaps: maps of LCAVIntegrator and TransRFIntegrator over a field, cos and sin arbitrary functions | algebraic laws: conserved quantities, composition of steps |
| C150-C152 | LinAlg: Gauss-Jordan inversion with full pivoting, Symplectify, EigenSystem of one plane | invariant b A = columns done and to do; Cayley transform; identities of eigenvectors |
| C153 | `LU/Model.lean`: `reduce`, `upper`, `lower`, `column`, `lufactor`, `forward`, `back`, `lusolve`, `det` | invariant over the columns (product of the triangles = exchanged matrix); a zero pivot gives a vector in the kernel |
| C154 | `LU/Model.lean`: `luMatrix`, `savgolWith`, `savgol` | length of the pivot vector; Gram matrix of a Vandermonde matrix is regular; solution of C153 |
| C155 | `LU/Model.lean`: `svdSolve`, `clip`, `svdSizes` | normal equations from the factors; Pythagoras; case split on sizes |
| C156 | `ATL/Model.lean`: `draw`, `applyAll`, `Simple.new`, `Simple.step`, `Simple.run`, `Simple.reset` | every motion is a linear form of the numbers drawn; sums of squares of coefficients over disjoint numbers |
| C157 | `ATL/Model.lean`: `corr`, `amplitudes`, `applyTwo`, `Two.step`, `Two.run` | linear forms; the eigensystem gives the matrix back |
| C158 | `ATL/Model.lean`: `Two.setMode`, `Two.setVibration`, `recordVecs`, `readVecs` | decision logic; induction over rows of the file |
| C159-C160 | Errors: AcceleratorErrors over a beamline of optional frames, transformations in a group | exact place of every element by induction over the beamline; pattern lemmas of C01-C04; moments of linear forms |
| C161-C163 | NANCheck: NANCheckProcess, halo filters | loop characterised by induction; invariant over runs |
| C164-C167 | CollDB: CollimatorDatabase (file, configuration in sigma and in metres) | induction over lines and rows; openings through C86; witnesses for the false cases |
| C168-C170 | Material: MaterialProperties, Mixture, MaterialData, standard table | sums over parts; induction over names; cumulated shares; the table by evaluation over the rationals |
| C171-C174 | Scatter: ScatteringModel, ScatteringProcess, models (over the reals) | laws by monotonicity of log and exp; kicks by sin^2 + cos^2 = 1; invariant over sequences of calls; moments of linear forms |
| C175-C177 | Orbit: ClosedOrbit, TransferMatrix, Dispersion over a map of the turn | normal equations with a right hand side within reach; difference quotients of affine maps; invariant over setter calls; sums over components |
| C178-C183 | Twiss: LatticeFunctions, PhaseAdvance | matrices over the reals, telescoping of the chain of inverses by induction, eigenvectors as rotating complex numbers, floors for the phase |
| C184-C186 | Tunes: FFT with its bit reversal and butterflies, amp, FindTune, FindTunes (BetatronTunes.cpp) over the reals | bit reversal by induction; partial sums of the transform as invariant of the stages; the filter as a sum of three geometric series; trigonometric identity of the interpolation |
| C187-C192 | Equilibrium: trapezium, romberg, the integrands, tunes, damping, emittance, repair of the matrix, BeamMoment (EquilibriumDistribution.cpp) | induction over refinements against the trapezoidal rule of Mathlib; elements of the bend of Transport; Taylor bound of the complex sine; sums over pairs of coordinates |
| C193-C199 | Symplectic: the maps and steps of SymplecticIntegrators.cpp without rectangular multipoles (real numbers) | orbits solve Hamilton's equations; derivatives along curves keep the canonical form, composed step by step; decision logic of the bend |
| C200-C206 | TransportMaps: BasicTransportMaps.cpp (second order maps of drift, quadrupole, sextupole, sector bend, combined function bend, pole face) and the bend of TransportIntegrators.cpp | derivative by the length compared with the Lorentz equations expanded to second order; polynomial identities modulo cos²+sin²=1 |
| C207-C213 | RectMultipole: `RectMultipoleCI::TrackStep` of the three integrator sets, with the changes of the field they make and undo | orbits as solutions of differential equations; the steps of general fields reduced to those of pure gradients, lines and deflections |
| C214-C222 | HollowLens: hollow electron lens, its profiles and modes of operation | enclosed current as an integral of the density, deflection by the Lorentz force; induction over turns |
| C223-C233 | MAD: MADInterface, from rows of a table to calls of the model constructor (components, frames, momentum, places) | row by row computation; invariants over the rows; induction over nested lines; effect of kickers through the integrators of C207 |
| C234-C246 | Components: RF structures and fields, solenoids, bends and their pole faces in a heap, copies, uninitialised members | integrals by antiderivative; turned vector fields; ownership of heap objects by induction on the sharing cases; characterisation of what copies lose |
| C247-C259 | ThinLens: bends, standing waves, monitors and solenoids of StdIntegrators.cpp; integrator sets and selection | closed form of each step; addition formulas for composition; derivative for motion; case analysis over classes for selection |
| C260-C271 | SMPMaps: the integrators for slices (SMPStdIntegrators.cpp) and lines of them | slices stand for clouds; affine maps of moments follow affine maps of particles; uniqueness of linear equations of motion; induction over lines |
| C272-C286 | XTFF: the interface for tape files (XTFFInterface.cpp): columns, header, loop over elements, components, apertures, girders, appending, lifetimes | round trip of columns; induction over lines and over nested frames |
| C287-C298 | Crab: crab cavities and their failure (CCFailureProcess.cpp): counting of turns, voltages, kicks, stored data of cavities, failures in voltage and phase | abstract counter machine per set of cavities, induction over turns; composition of eight passes |
| C299-C305 | Photon: generators of photon energies (PhotonSpectrumGen.cpp): the spectrum, its approximations, the loop of rejections, constants kept between calls | Clenshaw recurrence by induction, integer polynomials bounded by Horner's scheme on intervals, change of variables in Lebesgue integrals |
| C306-C312 | Coupler: wake field process with couplers (CouplerWakeFieldProcess.cpp, CombinedWakeRF.h) on top of the model of Wake | sums over slices split into three parts, invariant of two pointers over sequences of events |
| C313-C317 | Generators: distributions of particles with cut offs, rings, halos and halos for hollow lenses | first accepted number of a list; Courant-Snyder invariants; integrals of periodic functions; lengths of intervals |
| C318-C325 | Elastic: proton-proton elastic scattering, its amplitudes, cross sections and choice of t | quantiles of a table by interpolation; complex powers; Gaussian integrals over the plane; derivatives at the joint |
| C326-C333 | Diffractive: tables and choice of t and mass in single diffraction, differential cross section | quantiles by search in running sums; change of variables cell by cell; one-sided limits and derivatives at the joints |
| C334-C338 | Format: output formats of numbers and strings, printed matrices | induction over chains of calls; digits and readers; words and lines of a text |
| C339-C342 | Landau: table and formulas of the Landau distribution | windows of the table by recursion; cells glued at the grid; intermediate values near the pole |
| C343-C353 | Resistive: tables of collimator wakes (reading, interpolation), tapered and resistive potentials | parser inverse by induction over items; polynomial identities; derivatives |
| C354-C359 | Absorber: Gamma function, multiple scattering and energy loss in a block | numerator of the Lanczos sum with positive coefficients; squares at integers; log convexity of Gamma |
| C360-C363 | Hierarchy: frame modifiers and copies of frames | frames by address with single updates; mutual induction over trees |
| C364-C366 | Mover: settings of magnet movers and the transformation of their frames | reverse induction over operations; argument of a complex number; composition of C19 |
| C367-C368 | Stable: selection of stable orbits over many turns | invariant of bunch, index list and count of losses against particles with numbers |
| C369-C370 | Profile: timers of processes | entries of one process depend on its own calls only; carry of nanoseconds |
| C371-C372 | MapComponent: components given by a map with shared pointers, copies, rotations, tracking steps | invariant over all sequences of operations, families of copies, group action |
| C373-C375 | EigenSym: tred2, tqli, pythag and EigenSystemSymmetricMatrix over the reals: reflections and their product, search of the split, sweeps of rotations, limit of sweeps | induction over the leading blocks; form of the matrix with a bulge as invariant of a sweep; the sum of squares is kept and bounds what is dropped |
| C376-C378 | SVD: PYTHAG, the search for the block, the removal of an element beside a vanishing singular value | induction over rotations, product with the bidiagonal matrix |
| C379 | SVD: the sweep of rotations and its shift | invariant of the product with one element outside the diagonals |
| C380-C383 | Impacts: records of jaw impacts and scatter plots, their output, what tracking records | folds over names and records, invariant over all calls |
| C384 | SVD: the loops over singular values and tries | invariant kept by all tries, induction over singular values |
| C385-C386 | SVD, first part: reflections in place, bidiagonal matrix, making of both matrices of vectors, the whole of `SVD` for square matrices | induction downwards over the blocks of the matrix; each stored column is the reflection it was made from |
| C387 | SVD of matrices with orthogonal columns, from beginning to end | reflections keep the products of columns, so each row vanishes right of the diagonal |
| C388 | `SVD` followed by `SVDsolve` | orthonormal rows of square matrices are orthonormal columns; C155 and C386 together |
| C389-C394 | Dense: element access, views, copies, products and output of `Matrix` and `Vector`, `tgemm`, `tgemv`, `tdot` | division with remainder for the places in the array, sums for the loops |
| C395-C398 | Dense: operations on parts of matrices, `tgemr`, vectors and numbers, sums and greatest element of a slice | places in the array as before; induction over the loop |
| C399-C400 | MVC: means and covariances stored as a triangle | triangular numbers: strictly increasing, every number below is a pair |
| C401 | MAD: rows of type SROT | the row unfolded |
| C402 | PSvec: comparison of phase space vectors, doubles as bits | bytes determine the bits; the value of a double determines the bits except for zero |
| C403 | Plane: transformations of the plane in streams | the number of runs of digits is the number of numbers that can be read |
| C404 | Weighted: `SVDMatrix` with weights | C155 and C386-C388 for the weighted matrix |

## 4. Not expressible

* Accuracy of floating point results, performance, thread safety, memory leaks: outside the chosen model.
* Statistical properties of random sampling (bunch generation, scattering): no probability model is built.

## 5. Findings

Deviations of the code from the stated property that are proved in Lean are listed here as they are established.


| property | finding | theorem |
|---|---|---|
| C02 | `*a` does not match `aa`: the leftmost occurrence of the last literal is taken | `StringPattern.match_complete_violated` |
| C04 | the printed form of an OR pattern does not read back as the same pattern | `StringPattern.print_or_violated` |
| C07 | the variadic `AddRow` leaves a partial row behind when a later value has the wrong type | `DataTable.failed_addRow_violated` |
| C08 | rows of a table without columns are lost; an empty string cell cannot be read back | `TFS.rows_without_columns_lost`, `TFS.empty_string_unreadable` |
| C10 | input without a `*` line, or with a blank line, indexes an empty vector | `TFS.read_total_violated` |
| C13 | the lower index is not checked | `Lattice.slice_lower_unchecked` |
| C14 | when the start element also matches the second pattern, that match is not counted; an end before the start is accepted | `Lattice.pattern_beamline_violated`, `Lattice.pattern_beamline_reversed` |
| C15 | start index is not checked | `Lattice.ring_outside` |
| C16 | iterating a reversed beamline of two frames visits nothing, of more frames runs past the end | `Lattice.reversed_beamline_violated` |
| C17 | a full lattice vector makes the insertion iterator dangle; a negative position yields a drift of negative length | `Lattice.install_violated`, `Lattice.install_negative` |
| C57 | installing an element leaves stale beamline indices | `Lattice.install_stale_index` |
| C18 | `isIdentity` does not recognise a full turn about an axis | `Rotation.isIdentity_incomplete` |
| C19 | `==` (tolerance) and `!=` (exact) of 3-D vectors can both be true | `Transform.eq_ne_overlap` |
| C20 | `Rotation2D::isIdentity` looks at the sine only: the half turn is called identity | `Transform.isIdentity2_violated` |
| C20 | `TVec2D::isZero` tests y with tolerance 0 (a typing error `0, 0` for `0.0`) | `Transform.isZero2_asymmetric` |
| C58 | the 3-D lift of a 2-D transformation rotates the other way | `Transform.lift_violated` |
| C21 | the transform against the beam inside one sub-frame is not inverted | `Frame.seq_backward_violated` |
| C21 | a geometry patch at the end of a sequence is left out unless the whole sequence is asked for | `Frame.seq_patch_violated` |
| C61 | after consolidation a sequence with its origin at the entrance or exit has the identity as total transform | `Frame.cached_identity`, `Frame.consolidated_entrance_violated` |
| C61 | the plane transforms of a centred sequence start at the mirror image of the middle within its sub-frame | `Frame.center_planes`, `Frame.center_planes_violated` |
| C64 | the frame transformation of an undisturbed frame need not be the identity (follows from the unconverted backward transform) | `LatticeFrame.frame_identity_violated` |
| C22 | a channel id with one dot uses the whole string as key, without dot as type, name and key | `Channel.parse_short` |
| C23 | repository queries stop at the first element type that has no matching key, losing the channels of later types | `Channel.repository_query_violated`, `Channel.repository_query_exact` |
| C23 | constructors of a type are lost when another registered type name continues it with a dot | `Channel.dotted_type_violated` |
| C23 | a read-write query matching a BPM key fails an assertion | `Channel.rw_readonly_violated` |
| C54 | `MatchID` never stores its flag: `Find` and `Count` on a non-empty repository read an indeterminate value | `Channel.find_violated` |
| C24 | switching on a pulse delay n writes zero to all actuators during the first n-1 pulses, whatever they were set to | `Feedback.delayed_write` |
| C67 | setting one plane of a corrector winding zeroes the other; saving and resetting both channels loses a value | `Feedback.winding_violated` |
| C67 | a corrector winding on a magnet with zero field scale silently ignores settings | `Feedback.winding_scale_zero_violated` |
| C25 | `SetBPMOffset` of one plane clears the offset of the other | `Monitor.bpm_offset_violated` |
| C26 | the default buffer records also monitors with their own buffer, twice if added as well; a null buffer is dereferenced | `Monitor.default_buffer_violated`, `null_buffer_violated` |
| C70 | after `ClearAllBuffers` the server hands out a buffer that is not attached | `Monitor.server_stale_violated` |
| C71 | u-wire width is `c σx - s σy`: zero for a round beam at 45°, negative for a tall one; sign of the mean jumps at π/2 | `Monitor.profile_violated`, `profile_right_angle_violated` |
| C72 | `reflected` is never read | `Monitor.reflected_violated` |
| C69 | `reset`/`init` do not clear the store of local generators | `Random.local_violated` |
| C27 | in vector-sum mode the new values are stored before the scale is computed: cavities never change; voltage 0 gives 0/0 | `Klystron.vectorSum_violated`, `vectorSum_zero_violated` |
| C29 | `RemoveProcess` returns false for the last process; erases `end()` for an absent one | `StepManager.remove_last_violated`, `remove_absent_violated` |
| C30 | a process with limit zero keeps the step loop running for ever | `StepManager.zero_limit_hangs` |
| C31 | a step of length zero at the entrance makes the next step apply the entrance map again | `Tracker.zero_step_violated` |
| C31 | `TrackStep` returns the number of the state instead of the remaining length | `Tracker.trackStep_return_violated` |
| C32 | after a failed selection `GetRemainingLength` dereferences a null pointer | `Tracker.unknown_violated` |
| C73 | after an exception in the middle of a component, preparing the next component violates an assertion | `Tracker.abandoned_violated` |
| C77 | with a maximum step size a first step shortened by another process switches radiation off for the whole magnet | `Processes.rad_max_violated` |
| C78 | the counter of spin steps is never advanced: more than one step per component hangs tracking | `Processes.spin_hangs_violated` |
| C78 | a step of length zero repeats the entrance fringe for spins | `Processes.spin_entrance_violated` |
| C80 | electron lens and monitor act once per step instead of once per passage | `Processes.whole_component_violated` |
| C81 | aperture checks at the entrance make the tracker apply the entrance map twice | `Processes.entrance_check_violated` |
| C82 | a step shortened by another process leaves part of a collimator without scattering | `Processes.coll_bins_violated` |
| C83 | steps adjusted to the minimum are shorter than the minimum | `Processes.divider_minimum_violated` |
| C53 | frames brought in by `AppendFrame` keep beamline index 0 | `Constructor.appendFrame_index_violated` |
| C53 | a component used in two frames knows only the last position | `Constructor.shared_component_violated` |
| C53 | empty component frames of a ready-made sequence are in the frame tree but not in the lattice | `Constructor.empty_frame_violated` |
| C38 | evaluation exactly at the upper end of an equally spaced table reads past the last value | `Interpolation.upper_end_violated` |
| C84 | first and last data point are not reproduced for orders above one | `Interpolation.end_point_violated` |
| C84 | with order = points − 1 (also after the automatic reduction) every evaluation indexes row −1 | `Interpolation.full_order_violated` |
| C85 | the array constructor builds a temporary; the object has no data | `Interpolation.arrays_violated` |
| C35 | an octagon whose cuts are only the corners rejects everything outside the diamond | `Aperture.octagon_rectangle_violated` |
| C36 | interpolated rectangle-ellipse: quick test leaves out the first dimension of the row before | `Aperture.interpolated_rectEllipse_violated` |
| C36 | interpolated rectangle-ellipse accepts its boundary, the plain one does not | `Aperture.interpolated_boundary_violated` |
| C36 | interpolated ellipse never reads the vertical half axis | `Aperture.interpolated_ellipse_violated` |
| C36 | interpolated rectangles end the process; places behind the table are undefined, fatal or all accepted | `Aperture.interpolated_range_violated` |
| C36 | two rows at the same place at the beginning give not-a-number dimensions | `Aperture.interpolated_double_violated` |
| C86 | jaws that close: the quick test uses the opening at the entrance | `Aperture.taper_violated` |
| C87 | the entrance width and height set are never used | `Aperture.entrance_setters_violated` |
| C88 | an element whose predecessor has an aperture and ends where it begins gets the predecessor's aperture | `ApertureConfig.adjacent_violated` |
| C88 | an element behind the last row dereferences the end iterator | `ApertureConfig.element_end_violated` |
| C89 | a drift at the end of the table gets the aperture of the first row alone | `ApertureConfig.end_violated` |
| C89 | a drift before the first row extrapolates from the row at the other end | `ApertureConfig.start_violated` |
| C89 | a rounding error behind the last row discards all rows and throws | `ApertureConfig.rounding_violated` |
| C89 | mixed types starting with a circle are interpolated as circles | `ApertureConfig.mixed_violated` |
| C89 | rows doubled at the beginning of a drift give not-a-number dimensions there | `ApertureConfig.doubled_violated` |
| C33 | `StepComponent` ignores the entrance and exit geometry patches, ignores injection on axis, and `GetComponent` of a patch frame throws a string | `Verif.Tracking.step_patch_violated`, `Verif.Tracking.step_patchframe_violated`, `Verif.Tracking.step_axis_violated` |
| C91 | `GetReversedBeamline` gives a beamline whose iteration starts at the last frame and increments: after the first frame it leaves the vector | `Verif.Tracking.reversed_violated` |
| C48 | `MultipoleField::RotateY180` changes the sign of the field in addition to rotating it | `Verif.Multipole.rotation_violated`, `Verif.Multipole.rotation_partial` |
| C92 | `HighestMultipole` counts zero terms, and the const `GetCoefficient`/`GetComponent` lengthen the expansion; `LowestMultipole` reads past the end for a null field | `Verif.Multipole.highest_violated`, `Verif.Multipole.lowest_null` |
| C50 | `RMap::AddTerm` allows the same term twice: `Apply` sums, `operator()` reads the first, `ToMatrix` keeps the last; `RMap::Apply(PSvector&)` is declared but its definition is commented out | `Verif.LinMap.double_terms_violated` |
| C94 | `LinearTermArray` has an implicit copy that copies the pointer `last`: loops over a copy run out of its array | `Verif.LinMap.copy_violated` |
| C52 | `Solenoid` with no or negligible strength is the identity instead of a drift | `solenoid_zero_violated` |
| C95 | A bend with K1 = -h² gets no dispersion and no path length terms | `bend_flow_violated` |
| C95 | `Srot(phi, R)` with a tiny phi leaves R as it is; the tilted bend integrator gives it a new matrix | `srotAngle_violated` |
| C96 | `QuadrupoleT` of zero strength or length is the identity, and so is the vertical part of `SectorBendT` without gradient | `quadrupoleT_violated`, `sectorBendT_vertical_violated` |
| C96 | `SectorBendT` uses cos and sin for horizontally defocusing bends | `sectorBendT_horizontal_violated` |
| C97 | `TWRFCavity` with end fields multiplies slopes by E1/E0 instead of E0/E1 | `twrf_det_violated` |
| C97 | `SWRFCavity` leaves out the vertical plane of 6×6 matrices | `swrf_planes_violated` |
| C97 | The sparse `TWRFCavity` with the exit field only does not have the determinant E0/E1 | `twrfMap_det_violated` |
| C98 | The sparse `Srot` and `Solenoid` set ct and dp to zero | `srotMap_violated`, `solMap_violated` |
| C98 | The sparse `Solenoid` has its (3,2) term in the place (4,2) | `solMap_violated` |
| C51 | `Hist` counts data between `x2` and the end of the last bin, and the bin number of data far above the range overflows | Histogram.hist_beyond_violated, hist_far_violated |
| C40 | `GetProjectedMoments` adds to the second moments the caller passes instead of overwriting them | Bunch.getProjectedMoments_violated |
| C42 | `SetCentroid` shifts all particles but the first, so the mean is off by the n-th part of the former distance | Bunch.setCentroid_mean, setCentroid_violated |
| C43 | with MPI a particle counts as seven doubles; reading the seventh into a `PSvector` fails its index assertion, so `distribute` and `gather` fail for any particle; the ids are not sent and `gather` leaves the particles on the nodes | Bunch.distribute_violated, gather_violated, gather_twice_violated |
| C100 | the constructor gives one particle for `np` = 0 and does not apply the filter to the centroid | Bunch.generate_zero_violated, generate_filter_violated |
| C101 | `Input` does not restore the ids `Output` leaves out; they stay uninitialised | Bunch.input_ids_violated |
| C102 | `operator<<` prints the id directly after the last coordinate, so its digits are read as part of the exponent | Bunch.read_write_violated |
| C103 | `swap` takes its argument by value and leaves the caller's bunch unchanged | Bunch.swap_violated |
| C105 | `CouplingMatrix` returns the identity when the determinant of the parameters is zero, so one parameter alone couples nothing. | `Verif.Beam.coupling_singular_violated` |
| C107 | `DecoupleSigma` divides by the difference of squared emittances: round beams have no parameters. | `Verif.Beam.beam_round_violated` |
| C107 | `BeamDataToSigmaMtrx` leaves out `ct0`; the round trip gives 0 for `ct0` and `p0`. | `Verif.Beam.beam_centre_violated` |
| C107 | `SigmaMatrixToBeamData` takes `sqrt(1 - cos)` for the sine, so coupling parameters are not recovered. | `Verif.Beam.coupling_recovery_violated` |
| C108 | The constructor of bunches multiplies by `sqrt(sig_dp)` and `sqrt(sig_z)` although these are standard deviations. | `Verif.Beam.generated_spread_violated` |
| C44 | `LossMapCollimationOutput::Finalise` counts the first loss twice in the modes `nearestelement` and `precise`. | `Verif.LossMap.nearest_total_violated` |
| C44 | Losses in components with the same name at different places are merged into one entry. | `Verif.LossMap.tencm_same_name_violated` |
| C44 | `Dispose` does not end for a position below zero. | `Verif.LossMap.dispose_negative_violated` |
| C44 | A second `Finalise` neither keeps nor doubles the counts. | `Verif.LossMap.finalise_twice_violated` |
| C109 | A loss in a warm region is called cold if its component begins before the region. | `Verif.LossMap.temperature_place_violated` |
| C110 | The table of `DetailedCollimationOutput` has eleven headings and nine columns. | `Verif.LossMap.detailed_columns_violated` |
| C46 | `DoCollimation` clears `InputArray` after a loss; a loss at a second point of the component reads beyond its end. | `Verif.Collimation.second_loss_violated` |
| C111 | A loss in the last step of a component is counted but not given to the outputs. | `Verif.Collimation.last_step_violated` |
| C111 | A loss in a component without length is counted but not given to the outputs. | `Verif.Collimation.zero_length_violated` |
| C111 | A proton absorbed with less than a hundredth of its energy is not given to the outputs. | `Verif.Collimation.absorbed_unrecorded_violated` |
| C112 | A second run with the same process continues the turn number of the first. | `Verif.Collimation.second_run_violated` |
| C114 | A proton that comes out of a jaw is moved over the length to go before the step, so too far. | `Verif.Collimation.escape_violated` |
| C114 | In a last bin shorter than the others protons are moved back by a whole bin. | `Verif.Collimation.last_bin_violated` |
| C115 | A proton lost in an interaction is recorded one step beyond its place. | `Verif.Collimation.absorbed_position_violated` |
| C116 | An index list given by the user is deleted by the process (inverted null check). | `Verif.Collimation.user_list_violated` |
| C117 | `TransformMoments` with a matrix of dimension 2 or 4 sets the moments of all other coordinates to zero. | `Verif.MatrixMap.lost_moments_violated` |
| C118 | `RMtrx::Apply(PSvector&, double)` restores the momentum deviation, also if the matrix changes it. | `Verif.MatrixMap.reference_momentum_violated` |
| C118 | `RescaleMoments` does not rescale the correlation of `ct` and `dp`. | `Verif.MatrixMap.rescale_violated` |
| C119 | `RMtrx::operator*=` ignores the reference momentum of the factor. | `Verif.MatrixMap.composition_momentum_violated` |
| C120 | `RdpMtrx::Apply(PSmoments&)` uses the matrix at the mean momentum. | `Verif.MatrixMap.chromatic_moments_violated` |
| C121 | `UpdateSupportTransform` returns early unless both supports of a girder were modified, so moving one support alone has no effect; the copy constructor leaves `sup2` uninitialised for simple mounts | `Support.girder_violated`, `Support.copy_violated` |
| C122 | For equal offsets the translation is given in the entrance frame but applied in the frame of the origin, wrong for bent girders | `Support.girder_common_violated` |
| C124 | Solenoid fringe fields in `SpinParticleProcess::DoProcess` are used without the factor `norm` that dipole fringe and body fields get | `Spin.scaling_solenoid_violated` |
| C125 | `SortByCT`, `clear` and `swap` of a spin bunch move particles but not spins | `Spin.sort_violated`, `Spin.clear_violated`, `Spin.swap_violated` |
| C126 | `SMPBunch::GetMoments` calls `sigma.zero()`, which is `PSvector::zero`: second moments already in the result object are added to (SMPBunch.cpp 81); `GetProjectedMoments` clears nothing (105-125) | `Verif.Slices.moments_repeat_violated`, `projected_repeat_violated` |
| C127 | `AdjustRefMomentumToMean` divides dp by 1+mean without subtracting the mean: all momenta shift (SMPBunch.cpp 159); `AdjustRefTimeToMean` does not shift ct (165-174) | `Verif.Slices.refMomentum_violated`, `refTime_violated` |
| C128 | `R2Map::IsIdentity` compares the diagonal only, to 1e-6: rolls below 1.4 mrad are ignored for slices (RMap.h 240-243); longitudinal displacement ignored | `Verif.Slices.smallRotation_violated`, `drift_violated` |
| C130 | a slice bunch lacks the charge beyond 3 sigma of z and dp (SMPBunchConstructor.cpp 58-86) | `Verif.Slices.construct_charge_violated` |
| C131 | `ParticleBunchConverter`: charge beyond the range lost, bins of width range/(n-1) placed at spacing range/n, adjust unused, reference time lost, one-momentum bunches undefined | `Verif.Slices.from_charge_violated`, `from_centroid_violated`, `from_time_violated`, `from_monochromatic_ub` |
| C132 | `*--set_ct.rbegin()` dereferences past the set for the slice of largest ct or dp (SMPBunchConverter.cpp 81, 98) | `Verif.Slices.toParticles_ub` |
| C133 | MultiNormal: a covariance matrix with zero variance in the first coordinate (dimension at least two) divides by zero, so a beam without spread there cannot be generated | `MultiNormal.noSpread_violated` |
| C134 | ParticleBinList: with a filter (WakeFieldProcess always has one, of 29 coefficients) and four or more bins, the sums of the derivative read beyond the end of the histogram or of the filter | `Wake.filter_violated` |
| C134 | ParticleBinList: boundaries are accumulated, so rounding can leave particles of the range beyond the last boundary and the program is aborted | `Wake.rounding_violated` |
| C135 | WakeFieldProcess: the number of particles is noted before the tails are cut off, so after every cut the bunch is sliced again with the smaller deviation and cut a second time | `Wake.cutTwice_violated` |
| C136 | WakeFieldProcess::CalculateWakeL: for coherent radiation `j - i` with `j < i` is unsigned and wraps around; the potential is asked for distances of about 2^64 widths | `Wake.csr_violated` |
| C137 | ParticleBunchDistribution: a particle at the upper end of the range (or beyond the last whole bin) fails an assertion | `Distribution.end_violated` |
| C137 | ParticleBunchDistribution: if the first particle is to be removed, the iterator is decremented at the begin of the bunch | `Distribution.first_violated` |
| C138 | PrepSlices (SMPWakeFieldProcess.cpp 250-270) starts its sums with the first macro-particle and then its loop at the same one: its charge counts twice in the first slice | charge_violated |
| C139 | AWK (SMPWakeFieldProcess.cpp 74-80) scales all second moments with slopes but p(1,2), the correlation of x' and y | moments_violated |
| C140 | by the double count the reference momentum loses another amount than the macro-particles on average | beamloading_violated |
| C142 | the longitudinal wake has `wzc - wzs` (CollimatorWakeProcess.cpp 221) where the sum is due: a bunch above the axis gains momentum from its own wake | longitudinal_violated |
| C143 | with angles as coordinates radiation divides them by 1 + u/P0, so each loss changes the direction of flight | Radiation.angles_violated |
| C144 | an empty bunch gives a reference momentum which is no number | Radiation.empty_violated |
| C144 | AdjustRefMomentum does not rescale canonical transverse momenta | Radiation.canonical_violated |
| C145 | with SetMaxComponentStepSize the process switches itself off after a first step which another process made shorter: no radiation in the magnet | Radiation.schedule_violated |
| C147 | with a distance the exit of an element is sampled twice if the length is a multiple of the distance | Survey.distance_violated |
| C148 | places behind an accelerating structure depend on the number of steps | RFMaps.lcav_split_violated |
| C148 | without acceleration of the reference the slopes are kept, so transverse momenta grow with the energy | RFMaps.rf_violated |
| C149 | a deflecting structure displaces by 3/2 kick times length instead of 1/2 (the slope is changed before it is used) | RFMaps.trf_violated, trf_split_violated |
| C149 | the path length counts in a deflecting structure only if its field is zero | RFMaps.trf_time_violated |
| C151 | a symplectic matrix with eigenvalue -1 (half-integer tune) makes Symplectify throw SingularMatrix | LinAlg.symplectify_violated |
| C152 | a first guess which is accepted is real, so its norm is zero and the eigenvector is no number; this happens for the identity | LinAlg.guess_violated, identity_violated |
| C152 | for uncoupled planes the guess of the eigenvalue is exact and the matrix to be inverted singular (a quarter turn is exact in doubles too) | LinAlg.uncoupled_violated |
| C153 | `LUfactor` throws `SingularMatrix` for a row of zeros only; any other singular matrix is given a pivot of epsilon, and `det()` is not zero | `lu_singular_violated` |
| C154 | `LUMatrix` (and so `Det` and `TLAS::InvertMatrix`) writes the pivots into an empty vector: undefined for every matrix | `luMatrix_violated` |
| C154 | `savgol` gives an empty `indx` to `LUfactor`: `SetFilter` is undefined for all parameters | `savgol_violated` |
| C155 | `SVDMatrix` accepts square matrices only: more rows fail an assertion, fewer rows throw `DimensionError` | `svd_sizes_violated` |
| C156 | a support at a negative arc position makes `SimpleATL::DoStep` take the square root of a negative number | `negative_arc_violated` |
| C157 | in absolute mode (the default) `ATL2D::DoStep` uses the time before the step: after the first step nothing has moved | `absolute_violated` |
| C158 | `SetATLMode` tests the old mode: increment mode is entered with a vibration, and then cannot be left | `two_mode_violated` |
| C158 | `RecordEigenSystem` writes and the constructor reads only the upper triangle of the eigenvectors, which are not symmetric | `record_violated` |
| C159 | the prefix "*." lets a literal name select every element whose name ends in a point and that name | Errors.named_violated |
| C159 | the prefix is put before the first alternative only: in "A\|B" the B selects nothing | Errors.alternative_violated |
| C160 | an rms below 1.5e-8 (square within epsilon) applies no random error | Errors.small_rms_violated |
| C161 | the index printed does not count particles reported before | NANCheck.index_violated |
| C161 | particles of equal ids: only the first invalid one is reported, and another one is printed | NANCheck.equal_ids_violated |
| C161 | detailed mode reads `*end()` for a particle not seen at the start of the element | NANCheck.detailed_violated |
| C162 | particles reported before culling is enabled are never removed | NANCheck.late_cull_violated |
| C163 | horizontal halo filter drops particles with x = 0 or xp = 0 | NANCheck.horizontal_violated |
| C164 | after a word that is not a number (e.g. column titles) all later rows are empty and uninitialised, silently | CollDB.bad_number_violated |
| C164 | unknown material: null pointer in the row and in the material table | CollDB.unknown_material_violated |
| C165 | only the first collimator of a name is configured | CollDB.same_name_violated |
| C165 | opening across the axis uses the beam size along it | CollDB.height_violated |
| C165 | a collimator at the last row of the lattice functions throws out_of_range | CollDB.last_row_violated |
| C165 | null material dereferenced for the conductivity | CollDB.null_material_violated |
| C166 | parallel jaws of tilted collimators do not follow the orbit (rotated orbit overwritten) | CollDB.flat_tilt_violated |
| C166 | impact depth of exactly 1 is taken as not set | CollDB.impact_default_violated |
| C166 | with errors the exit opening uses the beam size at the entrance | CollDB.errors_exit_violated |
| C166 | rms jaw error passed as a variance | CollDB.jaw_rms_violated |
| C167 | offsets, jaw angles and length columns are never used | CollDB.gap_offsets_violated |
| C168 | `MakeMixtureByWeight` reads behind the end of a too short vector | Material.weights_short_violated |
| C169 | nuclei are chosen by cross section only, the amounts of the parts are ignored | Material.amounts_violated |
| C169 | unknown cross sections (-1) enter the choice: nickel never chosen in IT180, oxygen dominates Rutherford scattering in Glidcop | Material.nickel_violated |
| C170 | copy constructor leaves `lambda` uninitialised | Material.copy_violated |
| C170 | `operator=` keeps the old `lambda` | Material.assign_violated |
| C170 | `GetExtra` inserts a zero for a missing value | Material.get_extra_violated |
| C170 | `EnergyScale` ignores the energy and drops the extra values | Material.energy_scale_violated |
| C170 | AC150K has no `lambda`; O, Fe, Ni, Mo have negative ones | Material.standard_violated |
| C170 | `UseSixTrackValues` reads behind an array of five values | Material.six_track_violated |
| C171 | slope of single diffraction: divisor 26 instead of 36, the slope jumps at both ends | Scatter.slope_violated |
| C172 | `DoScatter` passes E2 as reference energy: the deviation is applied twice | Scatter.twice_violated |
| C173 | cross sections of a material are those of the energy of its first use | Scatter.energy_violated |
| C173 | choice within sigma_T, mean free path with sigma_T + sigma_R: rates too large | Scatter.rate_violated |
| C173 | unknown total cross section (-1) gives a negative range for the random number | Scatter.total_violated |
| C174 | `SixtrackdEdx` is never set: the simple mode loses no energy | Scatter.simple_violated |
| C174 | SixTrack models use the full energy loss until the first interaction | Scatter.first_steps_violated |
| C174 | `(I/eV) < 100` with I in eV: never true | Scatter.limit_violated |
| C174 | most probable energy loss has the wrong sign | Scatter.sign_violated |
| C174 | static values are keyed by address: a changed material is not seen | Scatter.memo_violated |
| C175 | energy loss without cavity: no closed orbit, yet w = 0 | Orbit.lossy_violated |
| C175 | `iter` is one more than the iterations done; max_iter = 1 does none | Orbit.count_violated |
| C176 | `FindTM(M)` reads `radstepsize`, which the constructor does not set | Orbit.unset_violated |
| C176 | `SetDelta` does not reach the closed orbit below the matrix | Orbit.delta_violated |
| C177 | RMS dispersion: the first component is taken to begin with zero dispersion | Orbit.rms_dispersion_violated |
| C177 | lines of the dispersion file: place before, dispersion behind the component | Orbit.rows_violated |
| C181 | LatticeFunctions.cpp 457-470: the particles of the columns are scaled in place, the second reference particle as a copy, so behind a change of momentum an orbit off the axis gives wrong functions | Twiss.acceleration_violated |
| C182 | LatticeFunctions.cpp 543-553: the table of the orbit has no row at the end, unlike the full table | Twiss.end_row_violated |
| C182 | LinearAlgebra.cpp 237-265: Symplectify adds a 6x6 matrix, so with unstable longitudinal motion (4x4) it always throws | Twiss.symplectify_planes_violated |
| C182 | LatticeFunctions.cpp 298-338: both closed orbits of the energy derivative are found with TransverseOnly from zero, so dp = 0 and the quotient is not a number | Twiss.energy_derivative_violated |
| C182 | LatticeFunctions.cpp 615-636: Value of a function which is not in the table dereferences the end of the list | Twiss.missing_undefined |
| C183 | PhaseAdvance.cpp 150: the loop stops before row n, so a turn ending in the last step is not counted and the advance to the next row is a turn too large | Twiss.last_turn_violated |
| C183 | PhaseAdvance.cpp 152: a phase of exactly zero hides the turn it ends | Twiss.whole_turn_violated |
| C184 | BetatronTunes::FFT runs beyond the end of the vector for every number of turns which is no power of two; nothing checks the number | fft_not_power_violated |
| C185 | FindTune reads spectrum[peak_position] although spectrum starts with bin 1: the interpolation uses the two bins above the peak, so the tune of a pure tone is 1/n too low | find_tune_shifted_violated |
| C185 | If the peak is one of the last two bins FindTune reads beyond the end of spectrum | find_tune_last_violated |
| C186 | Without diffusion FindTunes sets dQx, dQy to minus the tunes instead of zero | no_diffusion_violated |
| C187 | romberg is undefined for every function: it passes h[0] and s[0], which have not been written, and the array constructor of Interpolation keeps no data (zero would also be outside of the table) | romberg_violated |
| C187 | the static `answer` of trapezium is shared by all objects: two integrals refined in turn spoil each other | shared_static_violated |
| C188 | the integrands of the emittance leave out the focusing h² of the bend which the transport matrices include | weak_focusing_violated |
| C190 | CalculateEmittance is undefined for every ring with a bend which has a field | emittance_violated |
| C196 | A combined function bend whose gradient cancels the focusing of the curvature turns ct of all particles into NaN (c0, c1, c2, c4, c5 divide by `K1 + h*h`), though x and px are treated. | bend_flat_violated |
| C197 | `RSRFStructureMap` has `sinphi` where `cosphi` belongs in m21: areas are not scaled by the momenta unless sin = cos. | sw_area_violated |
| C198 | SYMPLECTIC bends ignore the dipole field and the beam momentum: a mismatched beam stays on axis (THIN_LENS and TRANSPORT rescale). | bend_strength_violated |
| C199 | Pole faces of a tilted bend act in upright axes. | bend_face_tilt_violated |
| C199 | A tilt within the tolerance of `fequal` (not zero) leaves the rotation matrix zero: all particles are put on the axis. | bend_small_tilt_violated |
| C200 | `QuadrupoleTM` with K1 = 0 divides by zero instead of giving a drift. | quadrupole_zero_violated |
| C201 | `SectorBendTM`: the linear terms do not depend on gamma but T126, T346, T266, T516, T526 and T566 do: wrong off momentum for particles with mass. | sector_energy_violated |
| C201 | `SectorBendTM` with h = 0 divides by zero. | sector_straight_violated |
| C202 | `GenSectorBendTM`: T112 lacks a term h·sx. | combined_product_violated |
| C202 | `GenSectorBendTM`: the second order terms of ct are wrong (T522 has the wrong sign for short magnets). | combined_delay_violated |
| C202 | `GenSectorBendTM` divides by zero at K1 = -h² and K1 = -h²/5. | combined_gradients_violated |
| C203 | `PoleFaceTM`: sign of K1·tan in T233 and a factor 2 in T413 are wrong, the map is not symplectic with a gradient. | face_symplectic_violated |
| C203 | A bend without pole faces, or with one PoleFace object for both ends, treats the entrance as an exit: fringes add up. | fringe_cancel_violated |
| C204 | A purely skew gradient in a bend selects `GenSectorBendTM` with K1.real() = 0: not a number. | bend_skew_gradient_violated |
| C204 | A bend that does not match the beam scales its gradient twice. | bend_momentum_violated |
| C205 | Drift, quadrupole and sextupole maps use slopes, the sector bend momenta in units of the reference momentum. | coordinates_violated |
| C206 | A tilt within the tolerance of `fequal` puts all particles on the axis. | tilt_small_violated |
| C206 | The sense of the tilt is opposite to that of SYMPLECTIC::SectorBendCI. | tilt_sign_violated |
| C208 | SYMPLECTIC: the matrix of a quadrupole to first order in the momentum deviation is applied to single particles; areas grow by 1 + dp²K(s²−S²)/4, more than one for every focusing magnet off momentum | sy_area_violated |
| C209 | Skew quadrupoles (THIN_LENS, TRANSPORT, SYMPLECTIC) and skew sextupoles (TRANSPORT) are turned into their axes by the opposite angle: the magnet acts with the opposite skew component | thin_skew_violated, sy_skew_violated, tr_skew_violated |
| C209 | A skew component with angle within the tolerance of `fequal` but not zero: `Srot` leaves a zero matrix and each particle is put on the axis (THIN_LENS, SYMPLECTIC) | thin_small_skew_violated, sy_small_skew_violated |
| C210 | THIN_LENS: magnets of length zero (correctors) do nothing | thin_zero_length_violated |
| C212 | SYMPLECTIC: with a gradient and other components the deflection is made twice and half a straight is added | sy_errors_violated |
| C212 | SYMPLECTIC: for a negative gradient the angle used for the deflection is 90 degrees (arg of a negative number is π): a flat bunch leaves the plane of symmetry | sy_midplane_violated |
| C212 | TRANSPORT: the other components of a skew quadrupole deflect in a turned direction | tr_skew_errors_violated |
| C213 | THIN_LENS: a magnet switched off by its scale, with a gradient coefficient and other components, puts every particle on the axis (zero matrix applied) | thin_off_violated |
| C216 | A hollow lens with electrons in the direction of the protons pushes them away from its axis: CalcThetaMax has the sign of the electric force reversed in that case | with_protons_violated |
| C217 | A hollow lens with an offset measures the distance from its own centre but deflects along the line to the axis of the machine | off_axis_violated |
| C218 | The velocity of the protons is found from a momentum in GeV/c and a mass in kg: it is that of light for every beam; the deflection does not depend on the momentum deviation | proton_velocity_violated, momentum_violated |
| C219 | The modulation tune of a hollow lens leaves its window when the step does not divide it | ac_window_violated |
| C220 | A hollow lens from a MAD table, or with an invalid mode, uses members without value; with radii set it divides zero by zero | unset_violated, mad_violated, mode_violated |
| C221 | A hollow lens passed in n steps deflects n times and counts n turns | steps_violated |
| C222 | OutputProfile ignores the lower end of its range: the table runs from zero to the length of the range; the beam size it divides by is never set | profile_violated, profile_unset_violated |
| C224 | A quadrupole, sextupole or solenoid of length zero in a MAD table has its strength divided by zero; a gradient in a bend of zero angle fails an assertion | thin_quadrupole_violated, straight_bend_violated |
| C225 | A thin kicker of a MAD table does nothing with the symplectic integrators; KICKER and TKICKER become drifts | thin_kicker_violated, both_planes_violated |
| C226 | A cavity whose length is not a whole number of half waves changes its length, and its voltage with it | cavity_length_violated |
| C227 | Rows of unknown kinds and markers lose their length, the length of a monitor with a name in WS becomes an angle, and a second model of one interface starts where the first one ended | unknown_violated, marker_violated, scanner_violated, second_model_violated |
| C228 | TreatTypeAsDrift does not work for collimators; K1SL of quadrupoles is ignored | treated_collimator_violated, skew_part_violated |
| C229 | A line directly inside a line of the same name closes it; names like Q_1 abort the program | same_name_violated, other_letter_violated |
| C230 | AppendModel loses the model, GetModel after it fails an assertion; after an exception the interface uses freed memory | append_then_get_violated, throw_then_construct_violated |
| C231 | The documentation of MADInterface promises zero for missing columns; they throw | missing_column_violated |
| C232 | With radiation the column ANGLE is needed though K0L replaces it without; bends treated as drifts still lower the momentum | no_angle_violated, drift_loses_violated |
| C233 | GetMutipoleType has all its tests inverted | multipole_type_violated |
| C224 | A bend of a MAD table with only one of E1 and E2 writes through a null pointer (SectorBend::PoleFaceInfo::SetInfo) | one_face_violated |
| C238 | RotateY180 of travelling wave and transverse structures changes the sign of the amplitude only; the wave still runs in the old direction | Components.turned_wave_violated |
| C240 | SectorBend::SetPoleFaceInfo with a null pointer writes through it; setting a face again, or assigning a bend to itself, uses deleted faces; one face for both ends is marked exit at the entrance; RotateY180 swaps faces but not their types | Components.null_face_violated, same_face_violated, self_assignment_violated, face_type_violated |
| C241 | RotateY180 of a bend negates the curvature but not the rotation of the pole faces, so that their focusing changes sign | Components.turned_face_violated |
| C242 | copies of components lose aperture, wake potentials, material, position and index | Components.copy_loses_violated |
| C243 | materialProperties, RectMultipole::np and the radiation length of a collimator made with a material are never initialised; a plain collimator divides by radiation length zero | Components.no_value_violated |
| C244 | GetBeamVoltage of a standing wave structure is twice what its field gives; that of a transverse structure is not zero | Components.standing_gain_violated, transverse_gain_violated |
| C246 | SetB0 scales the gradient of a combined function bend; GetB0 of a turned bend has the wrong sign; a magnet of field zero cannot be given a gradient | Components.dipole_violated |
| C247 | a bend whose tilt is below the tolerance of fequal, but not zero, sets all coordinates of all particles to zero (Srot writes nothing into the matrix) | ThinLens.small_tilt_violated |
| C250 | thin lens bends lose their dispersion if the gradient cancels the weak focusing | ThinLens.bend_motion_violated |
| C251 | gradients of thin lens bends act with the reference momentum on all particles, while the dipole acts with the momentum of each | ThinLens.bend_momentum_violated |
| C252 | pole faces of tilted bends are not turned with the bend (thin lens set) | ThinLens.tilt_face_violated |
| C253 | standing wave structures at the zero crossing divide by the cosine of the phase | ThinLens.sw_crossing_violated |
| C254 | standing wave structures cannot be tracked in steps other than whole cells: an assertion fails | ThinLens.sw_part_violated |
| C256 | monitors tracked in several steps repeat the measurement in each step after the measurement point | ThinLens.mon_repeat_violated |
| C256 | a monitor with its measurement point at its end never measures | ThinLens.mon_end_violated |
| C257 | a solenoid with a field above and an angle below the tolerance stops particles instead of letting them drift | ThinLens.sol_weak_violated |
| C259 | no integrator for standing waves in THIN_LENS and SMP, for transverse structures in SYMPLECTIC and SMP, for particle maps in all sets but THIN_LENS | ThinLens.select_missing_violated |
| C261 | slices in a dipole with a gradient are deflected once in the middle of the step, which is not the motion in the field | SMPMaps.combined_violated |
| C262 | slices in quadrupoles of length zero are defocused where quadrupoles of any length focus | SMPMaps.thin_quadrupole_violated |
| C263 | slices lose momentum deviation and place in every magnet with a skew gradient (RotateBunchAboutZ) | SMPMaps.skew_loses_violated |
| C263 | skew quadrupoles displace slices to the wrong side | SMPMaps.skew_violated |
| C263 | the least skew gradient turns the deflection by the dipole of a thin magnet round | SMPMaps.skew_dipole_violated |
| C264 | the gradient of bends is taken in units of the reference momentum of the bunch and not of the matched momentum; the result depends on the choice of the reference | SMPMaps.bend_gradient_violated |
| C265 | slices lose momentum deviation and place in tilted bends | SMPMaps.tilt_loses_violated |
| C266 | slices lose momentum deviation and place in solenoids | SMPMaps.solenoid_loses_violated |
| C266 | slices with a horizontal slope stay in their plane in a solenoid | SMPMaps.solenoid_helix_violated |
| C269 | slices move against their slope in travelling waves with a gain above twice their momentum | SMPMaps.tw_position_violated |
| C274 | wires of a tape file have no length: the length becomes the angle of the monitor, and all that follows is shifted | XTFF.wire_violated |
| C275 | a sector bend of which a pole face is not turned is a null pointer written to | XTFF.plain_bend_violated |
| C275 | the pole faces of rectangular bends are ignored | XTFF.rect_faces_violated |
| C276 | a quadrupole tilted by minus a quarter of pi stops the program | XTFF.negative_skew_violated |
| C276 | tilts within a part in a thousand of the skew angle are rounded to it | XTFF.near_skew_violated |
| C277 | kicks of correctors are lost | XTFF.kicks_lost_violated |
| C278 | collimators are twice as wide as the file says | XTFF.wide_collimator_violated |
| C278 | a collimator which has a radius too loses its jaws | XTFF.lost_jaws_violated |
| C279 | HMON and VMON cannot be treated as drifts | XTFF.monitors_kept_violated |
| C279 | names of types shorter than three characters are read past their end | XTFF.short_name_violated |
| C281 | Parse(P_ref) ignores the momentum; magnets are made for that of the file | XTFF.pref_violated |
| C282 | a file that ends within the optics of an element is taken as complete | XTFF.truncated_violated |
| C283 | interfaces share energy and place: one spoils the magnets of another | XTFF.shared_energy_violated |
| C284 | after AppendModel has failed to open a file, the interface is freed twice | XTFF.missing_file_violated |
| C284 | GetModel and Parse without a file, and any element after GetModel, use a null pointer | XTFF.misuse_violated |
| C285 | a frame which is not closed, or frames that overlap, end in a failed assertion | XTFF.unclosed_violated |
| C285 | a marker such as Q_1, or one without label, makes the file fail if girders are made | XTFF.marker_name_violated |
| C289 | with both points in use, the first cavity behind the fifth point indexes its array with the counter of the first point: -1 when the bunch starts before the fifth point | Crab.start_at_five |
| C290 | with both points in use the cavities of the fifth point never kick | Crab.cms_never_kicks_violated |
| C291 | the failure begins in the last of the turns without failure | Crab.fails_early_violated |
| C292 | after the turns of the failure no cavity works any more, also when the failure is switched off | Crab.off_still_ends_violated |
| C293 | with the first point alone in use, the phase given to the constructor is zero from the second cavity on | Crab.phase_lost_violated |
| C295 | voltages behind the interaction point regard the cosine of the phase advance only; the tilt stays open unless the advance is a multiple of half an oscillation | Crab.closing_violated |
| C297 | a fifth cavity in a set writes behind an array; a marker outside the four sets counts as one more cavity of the last set | Crab.fifth_cavity, Crab.out_of_place_violated |
| C298 | the frequency given to the constructor is used as an angular frequency, unlike the built-in one | Crab.frequency_violated |
| C304 | a random number zero at high energies gives a photon of infinite energy (log of zero), and it is always accepted since both spectra are zero there | Photon.infinite_energy_violated |
| C305 | the quick generator gives an infinite energy for the random number zero | Photon.awGen_infinite_violated |
| C282 | an element whose second line is missing at the end of the file is accepted: its first line is read twice | XTFF.half_element_violated |
| C307 | the kick of the coupler field is divided by the charge and multiplied by it again: without charge or length it is no number | Coupler.noCharge_violated |
| C308 | the kick of the coupler field falls to zero in the last slice, since the force at the last boundary is left at zero | Coupler.rf_constant |
| C308 | the phase of the kick at the lower boundary of a slice is that of its centre, so every particle is kicked as if half a slice ahead | Coupler.halfSlice_violated |
| C309 | the absolute value of the phase is used, so structures of opposite phases kick alike | Coupler.phase_violated |
| C310 | standing wave structures with coupler potentials get no kick of the field | Coupler.standing_violated |
| C311 | entering a component with coupler potentials cuts off the tails of the bunch before the wake acts | Coupler.enterCuts_violated |
| C312 | the process with couplers does not check the expected process: with the plain process beside it the wakes act twice | Coupler.twice_violated |
| C316 | Rings and halos of one sigma have half the emittance of the beam data, and halos, rings and uniform bunches a third of the momentum variance. | `Verif.Generators.emittance_violated`, `momentum_spread_violated` |
| C317 | Halos for hollow electron lenses, documented to be at zero in x' and y', have slopes -alpha x / beta. | `Verif.Generators.slopes_violated` |
| C317 | Thick halos draw the radius uniformly, so that more than half of the particles lie in the inner half of the area. | `Verif.Generators.thick_density_violated` |
| C320 | A distribution of elastic scattering is made once; later calls for another energy or other bounds are ignored. | `Verif.Elastic.energy_violated` |
| C323 | The double exchange for protons and antiprotons multiplies its terms into a sum that starts with zero and is always zero (not called). | `Verif.Elastic.double_exchange_bar_violated` |
| C326 | Distributions of single diffraction are made once; a later energy is ignored. | `Verif.Diffractive.energy_violated` |
| C328 | If the first of 5000 bins holds more than 2/500 of the cross section, the table of t gets negative entries and values below the lower bound are chosen. | `Verif.Diffractive.below_violated` |
| C329 | The factor of the acceptance is lowered after a ratio above one, so that early choices have another law than later ones, across all objects. | `Verif.Diffractive.history_violated` |
| C330 | `SelectT` and `SelectXi` of single diffraction follow a pointer that is never set. | `Verif.Diffractive.single_violated` |
| C332 | The derivative of the pion term lacks a factor s, so that background and high mass cross section meet with different slopes. | `Verif.Diffractive.slope_violated` |
| C333 | The cross section at high mass jumps at t = -1/4, where two fits meet. | `Verif.Diffractive.t_jump_violated` |
| C334 | `OPFormat::general` clears the bits both notations have in common, which are none, so that fixed and scientific notation cannot be left. | `Verif.Format.general_violated` |
| C336 | With a width below two a string that must not spill over is made longer by two points in place of being cut. | `Verif.Format.narrow_violated` |
| C337 | `os << fmt` sets notation, adjustment and precision of the stream for good, though the class promises not to. | `Verif.Format.stream_violated` |
| C337 | `MatrixForm` leaves the stream adjusted to the right. | `Verif.Format.matrix_adjust_violated` |
| C341 | The formula for small random numbers has a pole near 10^-15: values of any size where the distribution has its lowest. | `Verif.Landau.pole_violated` |
| C342 | The formula for random numbers above 0.999 cannot be reached (`I <= 999` holds for all of them). | `Verif.Landau.far_violated` |
| C344 | A wake table whose braces are not closed keeps the constructor in an endless loop. | `Verif.Resistive.unclosed_violated` |
| C346 | `interpolate` ignores the lower end of the table, reads outside tables of two points and jumps half way between points. | `Verif.Resistive.offset_violated`, `Verif.Resistive.two_points_violated`, `Verif.Resistive.halfway_violated` |
| C348 | xi is divided by the step of the first axis but used as third index, Gamma the other way round: with different axes wrong values or access outside the array. | `Verif.Resistive.xi_axis_violated`, `Verif.Resistive.gamma_edge_violated`, `Verif.Resistive.xi_edge_violated` |
| C349 | Interpolation in both parameters does not reproduce a table linear in Gamma: `amp` lacks the term `fg`, `fggc` and `fgcc` are exchanged; beyond the table it reads outside. | `Verif.Resistive.linear_violated`, `Verif.Resistive.both_exact`, `Verif.Resistive.beyond_violated` |
| C352 | `ResistiveWakePotentials`: the longitudinal potential grows with the root of the distance, and that of mode zero doubles when more modes are asked for. | `Verif.Resistive.derivative_violated`, `Verif.Resistive.mode_zero_violated` |
| C353 | `ResistivePotential`: the longitudinal tables are read but the potential is always one; mode zero uses a pointer never set. | `Verif.Resistive.long_violated`, `Verif.Resistive.monopole_violated` |
| C355 | `LogGamma` has no reflection formula: no value for negative arguments. | `Verif.Absorber.gamma_negative_violated` |
| C357 | Dividing a block changes the multiple scattering (logarithmic term). | `Verif.Absorber.divided_violated` |
| C359 | `ScatterParticle` multiplies the energy of a particle by three or more for a tenth of the random numbers in a block of 27.7 radiation lengths; a block of no length gives NaN. | `Verif.Absorber.gain_violated`, `Verif.Absorber.empty_violated` |
| C361 | A frame whose modifier is removed after consolidation stays at position zero; a second modifier is not entered in the hierarchy, and removing it (or the modifier of the frame at the top) uses a null pointer. | `Verif.Hierarchy.removed_violated`, `twice_violated`, `top_violated` |
| C363 | Copies of component frames have length zero, copies of sequences a geometry that was never set; modifiers are not copied and magnet movers fail an assertion. | `Verif.Hierarchy.copy_length_violated`, `copy_sequence_violated`, `copy_modifier_violated`, `copy_mover_violated` |
| C366 | `IsTransformed` is false for frames moved by their magnet mover; `GetLocalFrameTransform` after `SetLocalFrameTransform` returns something else unless the mover is at zero. | `Verif.Mover.transformed_violated`, `Verif.Mover.set_get_violated` |
| C368 | `StableOrbits::SelectStable` deletes the list handed to it, and throws if no orbit is stable. | `Verif.Stable.deleted_violated`, `Verif.Stable.none_violated` |
| C370 | `MerlinProfile::ClearTime` clears one process only; stopping a timer that was not started adds the time since 1970. | `Verif.Profile.clear_violated`, `Verif.Profile.unstarted_violated` |
| C96 | The time term of `SectorBendT` for `K1 = -h²` has the cube of the angle where it should be divided by the curvature | `Transport.sectorBendT_time_violated` |
| C371 | `ParticleMapComponent::Copy` copies the pointer to the map; `RotateY180` of a copy inverts the original too | `MapComponent.copy_rotated_violated` |
| C372 | `ParticleMapComponent::RotateY180` inverts the map: a drift becomes one of negative length | `MapComponent.rotated_drift_violated` |
| C372 | `LinearParticleMap::Invert` is `assert(false)`: components with a linear map cannot be rotated | `MapComponent.linear_rotate` |
| C376 | `PYTHAG` is zero for two arguments within the machine epsilon if the first is not the greater | `SVD.pythag_violated` |
| C377 | `SVD` leaves `work[i]` unscaled when it removes an element beside a vanishing singular value, so that another matrix is decomposed | `SVD.cancel_violated` |
| C381 | `SetJawImpact` and `SetScatterPlot` have no effect in tracking: the parts of `DoScatter` which record are commented out | `Impacts.tracked_violated` |
| C382 | `operator<` and `operator>` of `ScatterPlotData` return the opposite, and are true for equal records | `Impacts.compare_violated` |
| C383 | the headings of the files of impacts have one name less than the lines have columns | `Impacts.heading_violated` |
| C390 | a range with exchanged ends is accepted and its length wraps around; a matrix copied to itself becomes zero | `Dense.ranged_violated`, `Dense.copy_violated` |
| C391 | the product of two matrices is refused unless the result is square | `Dense.mul_violated` |
| C392 | factors near zero or one are taken for these; `tgemv` with a transposed matrix that is not square scales the wrong number of elements | `Dense.gemm_violated`, `Dense.gemv_violated` |
| C393 | the product of a short and a long vector silently leaves out the rest of the long one | `Dense.dot_violated` |
| C394 | a matrix that is not square cannot be written to a stream | `Dense.print_violated` |
| C395 | `*=` of a `SubMatrix` compares columns with rows: equal sizes are refused unless square, others are taken | `Dense.subMul_violated` |
| C396 | `tgemr` in place gives a wrong matrix and is not excluded | `Dense.gemr_violated` |
| C397 | a number subtracted from a `Vector` is added | `Dense.minus_violated` |
| C401 | a SROT row of a MAD table turns the axes by its length, not by its angle | `MAD.srot_violated` |
| C402 | `PSvector::operator==` compares bytes: zero and minus zero differ, what is no number is equal to itself | `PSvec.eq_violated` |
| C403 | `operator<<` of `Transform2D` puts nothing between the numbers: they cannot be read back | `Plane.read_violated`, `Plane.write_violated` |
