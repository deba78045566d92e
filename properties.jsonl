{"id": "C01", "title": "Pattern match never accepts a string outside the pattern's language", "statement": "If StringPattern(p).Match(s) returns true for a pattern p without '|', then s can be obtained from p by replacing every '*' with some (possibly empty) string.", "quantifier": "for every pattern string p without '|' and every string s", "why_tests_cant": "The pattern and subject spaces are infinite; a unit test only samples a few pairs, while one wrongly accepted name silently routes a channel or output to the wrong element.", "anchors": ["Merlin++/StringPattern.cpp: StringPattern::StringPattern, StringPattern::Match, DelimitString, SkipWC"]}
{"id": "C02", "title": "Pattern match accepts every string in the pattern's language", "statement": "If s can be obtained from p (a pattern without '|') by replacing every '*' with some string, then StringPattern(p).Match(s) returns true.", "quantifier": "for every pattern string p without '|' and every string s", "why_tests_cant": "Tests cannot enumerate all alignments of literals in a subject; the greedy search only fails on subjects in which the last literal occurs more than once.", "anchors": ["Merlin++/StringPattern.cpp: StringPattern::Match"]}
{"id": "C03", "title": "An OR pattern matches exactly the union of its alternatives", "statement": "For alternatives p1..pn (n>=2, non-empty, none containing '|') the pattern \"p1|p2|...|pn\" matches s iff at least one StringPattern(pi) matches s.", "quantifier": "for every list of at least two non-empty '|'-free alternatives and every string s", "why_tests_cant": "Quantifies over lists of patterns of any length and all subjects.", "anchors": ["Merlin++/StringPattern.cpp: StringPattern::StringPattern, StringPattern::Match, DelimitString"]}
{"id": "C04", "title": "Printing a pattern and re-reading it gives an equivalent pattern", "statement": "For a pattern p, the text written by operator<< is itself a pattern that matches exactly the same strings as p.", "quantifier": "for every pattern string p and every subject string", "why_tests_cant": "Equivalence of two matchers is a statement about infinitely many subjects.", "anchors": ["Merlin++/StringPattern.cpp: operator<<(ostream&, const StringPattern&)", "Merlin++/StringPattern.h: StringPattern::operator string"]}
{"id": "C05", "title": "A DataTable stays rectangular and consistently typed", "statement": "After any history of AddColumn / AddRow / AddRow(values...) / Set / SetWithStr calls, including calls that throw, every column listed by ColumnNames() has a known type and holds exactly Length() values, and names are distinct.", "quantifier": "for every finite sequence of mutating calls with any arguments, from an empty table", "why_tests_cant": "Histories are unbounded and include exceptional exits part-way through a row insertion.", "anchors": ["Merlin++/DataTable.cpp: DataTable::AddColumn, DataTable::AddRow, DataTable::SetWithStr", "Merlin++/DataTable.h: DataTable::AddRow, DataTable::Set"]}
{"id": "C06", "title": "Writing one DataTable cell changes that cell only", "statement": "After a successful Set(col,row,v) (or SetWithStr), the typed getter returns v for (col,row), every other cell, the column list, the types and the length are unchanged.", "quantifier": "for every table, column, row and value", "why_tests_cant": "A frame condition over all other cells of all tables.", "anchors": ["Merlin++/DataTable.cpp: DataTable::Set_d, DataTable::Set_i, DataTable::Set_s, DataTable::SetWithStr, DataTable::Get_d"]}
{"id": "C07", "title": "A failed DataTable call leaves the table unchanged and fails for the documented reason", "statement": "Access to an unknown column or a row >= Length() throws out_of_range, access with the wrong type throws WrongTypeException, adding a duplicate column throws invalid_argument; in each case the table is the same as before the call.", "quantifier": "for every table state and every failing call", "why_tests_cant": "Needs all combinations of state and bad argument; tests check a handful of them.", "anchors": ["Merlin++/DataTable.cpp: DataTable::AddColumn, DataTable::Get_d, DataTable::Set_d", "Merlin++/DataTable.h: WrongTypeException, DataTable::AddRow"]}
{"id": "C08", "title": "A table written as TFS reads back as the same table", "statement": "Writing a table with DataTableWriterTFS and reading the text with DataTableReaderTFS yields the same header entries, column names, types and cell values (strings and integers exactly, doubles through their printed form).", "quantifier": "for every table whose names are non-empty words and whose string cells are non-empty and free of quotes and newlines, of any size", "why_tests_cant": "Tables are unbounded and string cells may contain spaces and tabs that interact with the line splitter.", "anchors": ["Merlin++/DataTableTFS.cpp: DataTableWriterTFS::Write, DataTableReaderTFS::Read, split_line, type_conv"]}
{"id": "C09", "title": "Splitting a quoted line into words is exact", "statement": "Joining any list of words, each quoted or unquoted and separated by arbitrary runs of blanks, gives a line that the reader splits into precisely those words.", "quantifier": "for every list of non-empty quote-free words (unquoted ones blank-free) and every amount of separating white space", "why_tests_cant": "Arbitrary strings and spacing; a sampled test misses e.g. quoted blanks next to separators.", "anchors": ["Merlin++/DataTableTFS.cpp: split_line"]}
{"id": "C10", "title": "The TFS reader accepts or rejects every file in a defined way", "statement": "For any text the reader either returns a rectangular table whose number of rows is the number of non-blank body lines, or throws BadFormatException/standard exception.", "quantifier": "for every input text, including empty and truncated files", "why_tests_cant": "All byte sequences; truncation at each point of a file is a family of inputs tests do not cover.", "anchors": ["Merlin++/DataTableTFS.cpp: DataTableReaderTFS::Read"]}
{"id": "C11", "title": "A ring iterator has the container size as its exact period", "statement": "Starting anywhere in a container of n>0 elements, n increments (or decrements) return to the start and visit each element exactly once; increment and decrement are inverse.", "quantifier": "for every non-empty container, start position and number of steps", "why_tests_cant": "Universally quantified over container size, start and step count.", "anchors": ["Merlin++/ring_iterator.h: ring_iterator::operator++, ring_iterator::operator--"]}
{"id": "C12", "title": "A numerical range behaves as a closed interval", "statement": "A range constructed from two bounds in either order accepts exactly the values between them (bounds included), Check(x) reports below, inside or above correctly, the unbounded range accepts everything, != is the negation of ==, and no pair of bounds is mistaken for the unbounded range.", "quantifier": "for all pairs of bounds and all tested values", "why_tests_cant": "A statement about all reals; the sentinel encoding of the unbounded range can collide with real bounds only on special inputs.", "anchors": ["Merlin++/Range.h: NumericalRange, NumericalRange::operator(), NumericalRange::Check, NumericalRange::IsUnbounded"]}
{"id": "C13", "title": "A beamline slice contains exactly the requested elements in lattice order", "statement": "GetBeamline(n1,n2) with n1<=n2<size iterates over elements n1..n2 once each in order; an upper index outside the lattice throws BadRange.", "quantifier": "for every lattice and index pair", "why_tests_cant": "All lattices and index pairs including the out-of-range ones.", "anchors": ["Merlin++/AcceleratorModel.cpp: AcceleratorModel::GetBeamline"]}
{"id": "C14", "title": "Selecting a beamline by two name patterns starts and ends at the requested occurrences", "statement": "GetBeamline(pat1,pat2,n1,n2) starts at the n1-th element matching pat1 and ends at the n2-th element matching pat2, and throws BadRange when either occurrence does not exist or the end precedes the start.", "quantifier": "for every lattice, pair of patterns and occurrence counts", "why_tests_cant": "Depends on the positions of all matching elements in an arbitrary lattice; the single-pass scan is only right if both counters advance correctly on shared elements.", "anchors": ["Merlin++/AcceleratorModel.cpp: AcceleratorModel::GetBeamline(const string&, const string&, int, int)"]}
{"id": "C15", "title": "A ring visits every element once per turn from any starting element", "statement": "GetRing(n) gives an iteration that starts at element n and visits each element of the lattice exactly once before returning to n.", "quantifier": "for every non-empty lattice and start index", "why_tests_cant": "All lattice sizes and start indices.", "anchors": ["Merlin++/AcceleratorModel.cpp: AcceleratorModel::GetRing", "Merlin++/ring_iterator.h: ring_iterator"]}
{"id": "C16", "title": "A reversed beamline visits the whole lattice backwards", "statement": "GetReversedBeamline() iterates over all elements of the lattice exactly once in reverse order.", "quantifier": "for every non-empty lattice", "why_tests_cant": "All lattice sizes.", "anchors": ["Merlin++/AcceleratorModel.cpp: AcceleratorModel::GetReversedBeamline"]}
{"id": "C17", "title": "Installing an element inside a drift keeps the lattice length and all other elements", "statement": "InstallModelElement(e, at) with a zero-length element e and a position inside a drift replaces that drift by two drifts of the same total length with e between them, so that the lengths before e add up to `at`; the arc length of the lattice and all other elements with their order are unchanged.", "quantifier": "for every lattice, every zero-length element and every position inside a drift", "why_tests_cant": "Continuous positions and arbitrary lattices; the zero-length remainders are special cases.", "anchors": ["Merlin++/AcceleratorModel.cpp: AcceleratorModel::InstallModelElement, AcceleratorModel::FindElementLatticePosition"]}
{"id": "C18", "title": "Rotation3D composes, inverts and acts like a rotation matrix whatever its internal form", "statement": "For any expression built from rotationX/Y/Z, products, inverses and by-pi conjugations, applying the resulting Rotation3D to a vector equals applying the corresponding product of 3x3 rotation matrices; products are associative and R*R.inv() acts as identity.", "quantifier": "for every finite expression of rotations and every vector", "why_tests_cant": "The implementation picks one of five representations per node; expressions are unbounded and every pairing of representations must agree.", "anchors": ["Merlin++/Rotation3D.h: Rotation3D", "Merlin++/AxisRotations.cpp: PureXRotation, PureYRotation, PureZRotation", "Merlin++/GeneralRotation.cpp: GeneralRotation", "Merlin++/IdentityRotation.cpp: IdentityRotation"]}
{"id": "C19", "title": "Transform3D is a group acting on points", "statement": "(T2*T1)(p) = T2(T1(p)), T.inv() undoes T on both sides, *= agrees with *, and vectors are transformed by the rotation only.", "quantifier": "for all transformations and points", "why_tests_cant": "Universal algebraic laws over all rotations and displacements.", "anchors": ["Merlin++/Transform3D.h: Transform3D", "Merlin++/Transform3D.cpp: Transform3D::operator*=, Transform3D::inv, Transform3D::invert"]}
{"id": "C20", "title": "Transform2D is a group acting on points", "statement": "(T2*T1)(p) = T2(T1(p)) and T.inv() undoes T for 2-D transformations; isIdentity() is true only for transformations that move no point.", "quantifier": "for all 2-D transformations and points", "why_tests_cant": "Universal algebraic laws.", "anchors": ["Merlin++/Transform2D.h: Rotation2D, Transform2D"]}
{"id": "C21", "title": "Geometry transforms of a sequence compose along the beam line", "statement": "For a SequenceFrame, the transform from s0 to s2 equals the transform from s0 to s1 followed by that from s1 to s2; the transform from s to s is the identity, and the transform backwards is the inverse of the one forwards.", "quantifier": "for every sequence of sub-frames and positions inside the extent", "why_tests_cant": "Positions are continuous and sequences nest; branch choice depends on which sub-frames contain s0 and s.", "anchors": ["Merlin++/SequenceFrame.cpp: SequenceFrame::SequenceGeometry::GetGeometryTransform, SequenceGeometry::GetTotalGeometryTransform"]}
{"id": "C22", "title": "A channel path is parsed into type, identifier and key", "statement": "For a channel id of the form TYPE.ID.KEY (or with wildcards) the server looks up exactly the elements matching TYPE.ID and the key KEY.", "quantifier": "for every channel id string", "why_tests_cant": "All strings, including ones with too few separators.", "anchors": ["Merlin++/ChannelServer.cpp: CHPath, ChannelServer::GetROChannels, ChannelServer::GetRWChannels"]}
{"id": "C23", "title": "A channel query returns one channel per matching element and supported key", "statement": "GetROChannels/GetRWChannels for a pattern returns exactly the channels of all elements whose qualified name matches, for each key matching and supported by that element type, regardless of what other types are registered.", "quantifier": "for every repository, constructor table and channel pattern", "why_tests_cant": "Combinatorial in repository contents and registered constructors; depends on traversal order.", "anchors": ["Merlin++/ChannelServer.cpp: ChannelServer::GetROChannels, ChannelServer::GetRWChannels, ChannelServer::FindCtors"]}
{"id": "C24", "title": "Delayed feedback writes the correction computed n-1 pulses earlier", "statement": "A LinearFBSystem with pulse delay n writes at pulse k the actuator values computed at pulse k-(n-1), and with gain g and invertible response the setting after one undelayed pulse is A - g*Mi*(S-S0).", "quantifier": "for every delay n>=1, every response matrix and every sequence of signals", "why_tests_cant": "The delay queue must be right for all pulse histories.", "anchors": ["Merlin++/LinearFBSystem.cpp: LinearFBSystem::Apply, LinearFBSystem::SetPulseDelay"]}
{"id": "C25", "title": "Setting the offset of one BPM plane leaves the other plane alone", "statement": "SetBPMOffset on the X (Y) channel of a BPM changes what the X (Y) channel reads by the new offset and does not change what the Y (X) channel of the same BPM reads.", "quantifier": "for every BPM buffer state and offset value", "why_tests_cant": "A frame condition over all states; it only fails when both planes have been given an offset.", "anchors": ["Merlin++/BPMChannel.cpp: BPMChannel::SetBPMOffset, BPMChannel::Read", "Merlin++/BPMDataBuffer.h: BPMDataBuffer::SetOffsets"]}
{"id": "C26", "title": "Each BPM measurement reaches its own buffers once, and the default buffer only when it has none", "statement": "When a BPM takes data, every buffer added and not removed receives the measurement exactly once and no other buffer receives it; the default buffer is used only by BPMs without a buffer of their own; an inactive BPM sends nothing.", "quantifier": "for every history of AddBuffer/RemoveBuffer/ClearAllBuffers/SetDefaultBuffer/MakeMeasurement calls", "why_tests_cant": "Histories are unbounded.", "anchors": ["Merlin++/AMBufferManager.h: AMBufferManager::AddBuffer, RemoveBuffer, SendToBuffers", "Merlin++/BPM.cpp: BPM::MakeMeasurement", "Merlin++/BPM.h: BPM::TakeData"]}
{"id": "C27", "title": "Klystron voltage and phase are what its cavities see", "statement": "For a klystron in balanced mode the vector sum over its structures of their voltage phasors equals V*exp(i phi); after SetVoltagePhase(z), GetVoltagePhase() returns z; in vector-sum mode setting the voltage rescales every cavity so that the vector sum is the requested one.", "quantifier": "for every set of structures with any voltages and phases and every requested phasor", "why_tests_cant": "Continuous parameters and any number of cavities.", "anchors": ["Merlin++/Klystron.cpp: Klystron::SetVoltagePhase, Klystron::GetVoltagePhase, Klystron::SetVoltage, Klystron::SetPhase"]}
{"id": "C28", "title": "Bunch processes run in priority order, insertion order breaking ties", "statement": "However processes are added, those with non-negative priority run in non-decreasing priority and in insertion order within one priority.", "quantifier": "for every sequence of AddProcess calls", "why_tests_cant": "Histories are unbounded and ties, negative priorities and removals interact.", "anchors": ["Merlin++/ProcessStepManager.cpp: ProcessStepManager::AddProcess, ProcessStepManager::DoProc"]}
{"id": "C29", "title": "Removing a process removes exactly that process and reports whether it was there", "statement": "RemoveProcess(p) returns true iff p was registered and afterwards the list is the old list without p; for an unregistered process it returns false and changes nothing.", "quantifier": "for every list of processes and every process", "why_tests_cant": "All positions in the list, including the last one and absence.", "anchors": ["Merlin++/ProcessStepManager.cpp: ProcessStepManager::RemoveProcess"]}
{"id": "C30", "title": "Tracking a component takes steps that sum to its length and never exceed a process limit", "statement": "While tracking a component, the step lengths add up to the component length, no step exceeds the maximum of any active process at that time, and each active process sees every step.", "quantifier": "for every list of processes with any (positive) step limits and every component length", "why_tests_cant": "Step sequences depend on dynamic limits of arbitrary processes.", "anchors": ["Merlin++/ProcessStepManager.cpp: ProcessStepManager::Track, CalcStepSize, DoProc"]}
{"id": "C31", "title": "Entrance and exit maps of a component are applied once, whatever the step pattern", "statement": "Tracking a component of positive length in any sequence of positive steps adding up to its length applies the entrance map once before everything and the exit map once after everything, and reports the remaining length after each step.", "quantifier": "for every component length and every sequence of step lengths with that sum", "why_tests_cant": "All subdivisions of a component.", "anchors": ["Merlin++/ComponentIntegrator.h: ComponentIntegrator::Track, GetRemainingLength, AtEntrance, AtExit", "Merlin++/ComponentTracker.cpp: ComponentTracker::TrackStep"]}
{"id": "C32", "title": "Component tracker state machine admits only legal call sequences", "statement": "Track/TrackStep are performed only after a component has been prepared; after the component is finished, no more tracking is possible until another is prepared or Reset is called.", "quantifier": "for every sequence of tracker calls", "why_tests_cant": "Call sequences are unbounded.", "anchors": ["Merlin++/ComponentTracker.cpp: ComponentTracker::Track, TrackStep, Reset, SelectIntegrator", "Merlin++/ComponentTracker.h: ComponentTracker::State"]}
{"id": "C33", "title": "Stepping through a beamline is equivalent to running it", "statement": "Calling InitStepper and then StepComponent until it returns false applies to the bunch the same sequence of transformations and component maps as Run on the same beamline.", "quantifier": "for every beamline and every bunch", "why_tests_cant": "Equivalence of two drivers over all beamlines, including ones with misalignments and geometry patches.", "anchors": ["Merlin++/TrackingSimulation.cpp: PerformTracking, TrackingSimulation::StepComponent, TrackingSimulation::DoRun"]}
{"id": "C34", "title": "Every frame of a ring or beamline is tracked exactly once per run in order", "statement": "A run over a beamline or over a ring of n frames applies frame entrance transform, entrance patch, component, exit patch and exit transform for every frame exactly once in order.", "quantifier": "for every non-empty beamline or ring", "why_tests_cant": "All lattice sizes; the loop end test compares iterators which wrap around.", "anchors": ["Merlin++/TrackingSimulation.cpp: PerformTracking, TrackingSimulation::DoRun"]}
{"id": "C35", "title": "Aperture checks accept exactly the interior of the aperture", "statement": "CheckWithinApertureBoundaries(x,y,s) of circular, rectangular, elliptical, rect-elliptical and octagonal apertures returns true exactly when (x,y) lies strictly inside the shape.", "quantifier": "for every shape with positive dimensions and every point", "why_tests_cant": "All points of the plane; the fast accept path is only right if the inscribed diamond lies inside the shape.", "anchors": ["Merlin++/Aperture.cpp: CircularAperture, RectangularAperture, EllipticalAperture, RectEllipseAperture, OctagonalAperture :: CheckWithinApertureBoundaries"]}
{"id": "C36", "title": "Interpolated apertures agree with the plain aperture of the interpolated size", "statement": "For an interpolated aperture and a position z between two defining positions, the check equals the check of the plain aperture with linearly interpolated dimensions.", "quantifier": "for every table of dimensions, every z inside it and every point", "why_tests_cant": "All tables, positions and points; the fast accept path mixes dimensions of both ends.", "anchors": ["Merlin++/InterpolatedApertures.cpp: InterpolatedRectEllipseAperture, InterpolatedCircularAperture, InterpolatedEllipticalAperture, InterpolatedOctagonalAperture"]}
{"id": "C37", "title": "Linear interpolation reproduces its data and stays inside the data range", "statement": "Interpolation with order 1 returns y_i at x_i, is between the neighbouring data values between nodes, and throws BadRange outside the table.", "quantifier": "for every table of at least two strictly increasing points and every argument", "why_tests_cant": "All tables and arguments; the bracket search must be right for each.", "anchors": ["Merlin++/Interpolation.cpp: ArbSpacedData::ValueAt, EqualSpacedData::ValueAt"]}
{"id": "C38", "title": "Equally spaced interpolation is defined on the closed table range", "statement": "EqualSpacedData::ValueAt(x) returns the piecewise linear interpolant for every x in [xmin,xmax], both ends included, and continues the first and last segment outside.", "quantifier": "for every table of at least two points and every x", "why_tests_cant": "The end point is one value out of a continuum.", "anchors": ["Merlin++/Interpolation.cpp: EqualSpacedData::ValueAt"]}
{"id": "C39", "title": "Bunch moments are the statistical mean and covariance", "statement": "GetMoments returns for each coordinate the arithmetic mean and for each pair the covariance sum((xi-mi)(xj-mj))/n of the particles, and is independent of particle order.", "quantifier": "for every non-empty bunch", "why_tests_cant": "Bunches are arbitrary; the running update formula must equal the batch definition for all n.", "anchors": ["Merlin++/ParticleBunch.cpp: APSV1, PSVVAR1, ParticleBunch::GetMoments"]}
{"id": "C40", "title": "Projected moments depend only on the bunch and the plane", "statement": "GetProjectedMoments(u,v,sigma) overwrites sigma with the projected moments of the bunch; what sigma contained before does not matter.", "quantifier": "for every bunch, coordinate pair and previous content of sigma", "why_tests_cant": "Dependence on stale state is invisible with freshly zeroed arguments.", "anchors": ["Merlin++/ParticleBunch.cpp: ParticleBunch::GetProjectedMoments"]}
{"id": "C41", "title": "Changing the reference momentum keeps every particle's physical momentum", "statement": "AdjustRefMomentum(dpp) and AdjustRefMomentumToMean leave P0*(1+dp) of every particle unchanged, and after adjusting to the mean the mean dp is zero.", "quantifier": "for every bunch and every dpp > -1", "why_tests_cant": "Universal over particle coordinates.", "anchors": ["Merlin++/ParticleBunch.cpp: ParticleBunch::AdjustRefMomentum, AdjustRefMomentumToMean, AdjustRefTimeToMean"]}
{"id": "C42", "title": "SetCentroid makes the first particle the bunch centroid", "statement": "After SetCentroid() the mean of every coordinate equals the coordinate of the first particle.", "quantifier": "for every bunch", "why_tests_cant": "Holds trivially for test bunches whose centroid already is the first particle.", "anchors": ["Merlin++/ParticleBunch.cpp: ParticleBunch::SetCentroid"]}
{"id": "C43", "title": "Distributing and gathering a bunch over processes loses no particle", "statement": "For any number of MPI ranks, distribute() followed by gather() gives back a bunch with the same particles, each on exactly one rank in between.", "quantifier": "for every bunch size and number of ranks", "why_tests_cant": "The remainder of size/ranks and the rank arithmetic vary with both numbers.", "anchors": ["Merlin++/ParticleBunch.cpp: ParticleBunch::master_send_particles_to_nodes, node_recv_particles_from_master, gather, distribute"]}
{"id": "C44", "title": "The loss map accounts for every lost particle once", "statement": "After Finalise() the loss counts of the loss map sum to the number of particles handed to Dispose, in every output mode, and each count sits in the bin that contains the loss position.", "quantifier": "for every sequence of losses in any elements and positions, every mode", "why_tests_cant": "All multisets of losses; the first entry is a special case of the merging loop.", "anchors": ["Merlin++/LossMapCollimationOutput.cpp: LossMapCollimationOutput::Dispose, LossMapCollimationOutput::Finalise", "Merlin++/CollimationOutput.h: Compare_LossData, Merge_LossData"]}
{"id": "C45", "title": "Collimation neither duplicates nor forgets particles", "statement": "At each collimation point every particle of the bunch is either kept, in its original order, or counted as lost, exactly the ones outside the aperture being lost when there is no scattering; survivors plus lost equals the number before, and the particle index list stays aligned with the bunch.", "quantifier": "for every bunch, aperture and sequence of collimation points", "why_tests_cant": "Arbitrary bunches and histories.", "anchors": ["Merlin++/CollimateParticleProcess.cpp: CollimateParticleProcess::DoCollimation, InitialiseProcess, SetNextS"]}
{"id": "C46", "title": "Losses at several points of one component are each recorded", "statement": "With collimation requested at more than one position of a component, losses at each of these positions are recorded, with the coordinates of the particles that were lost.", "quantifier": "for every combination of collimation positions and every pattern of losses", "why_tests_cant": "Needs losses at two positions in one component, a combination tests rarely create.", "anchors": ["Merlin++/CollimateParticleProcess.cpp: CollimateParticleProcess::DoCollimation, SetCurrentComponent"]}
{"id": "C47", "title": "A multipole field is the sum of its terms", "statement": "Unless the field is null (scale within machine epsilon of zero), GetField2D(x,y,k) equals scale times the sum over n>k of the n-th coefficient times (x+iy)^n; fields add when coefficients add; components set at a radius are read back and leave the others; reading a coefficient does not change the field; GetKn is the n-th complex derivative on the axis divided by the rigidity; the force is the Lorentz force.", "quantifier": "for every expansion, point and exclusion index", "why_tests_cant": "Universal over expansions and points.", "anchors": ["Merlin++/MultipoleField.cpp: MultipoleField::GetField2D, SetComponent, GetComponent, SetCoefficient, GetCoefficient, GetKn, GetForceAt"]}
{"id": "C48", "title": "Rotating a multipole field by 180 degrees about the vertical axis is the geometric rotation", "statement": "After RotateY180 the field at (x,y) is the rotated field: By'(x,y)=By(-x,y) and Bx'(x,y)=-Bx(-x,y); doing it twice restores the field.", "quantifier": "for every expansion and point", "why_tests_cant": "Universal over expansions and points.", "anchors": ["Merlin++/MultipoleField.cpp: MultipoleField::RotateY180"]}
{"id": "C49", "title": "A covariance matrix is symmetric and its cells are independent", "statement": "Writing element (i,j) of a TCovMtrx is read back at (i,j) and (j,i), var(i) is element (i,i), and no other element changes.", "quantifier": "for every dimension N and all index pairs below N", "why_tests_cant": "All dimensions and pairs of pairs; relies on the triangular offset being injective.", "anchors": ["Merlin++/TCovMtrx.h: TCovMtrx::offset, TCovMtrx::sig, TCovMtrx::var"]}
{"id": "C50", "title": "A sparse linear map acts as its matrix on vectors and on covariance matrices", "statement": "Applying an RMap to a vector equals multiplying by the matrix it converts to, applying it to a covariance matrix S gives R S R^T, and applying an RTMap adds its second order terms and keeps the particle id; elements assigned with operator() are read back, convert to the matrix and never overflow the term array; a map made from a matrix has its elements.", "quantifier": "for every map with pairwise distinct terms, every vector and covariance matrix", "why_tests_cant": "Universal over sparsity patterns; the half weights for off-diagonal terms must sum correctly.", "anchors": ["Merlin++/RMap.h: RMap::Apply, RMap::map2nd", "Merlin++/RMap.cpp: RMap::Apply, RMap::ToMatrix, RMap::operator()"]}
{"id": "C51", "title": "A histogram accounts for every datum", "statement": "Hist counts every datum either in exactly one bin, the one whose interval contains it, or as lost; the bins plus the lost count add up to the number of data.", "quantifier": "for every data vector, range with x1<=x2 and bin width > 0", "why_tests_cant": "Arbitrary data.", "anchors": ["Merlin++/Histogram.cpp: Hist"]}
{"id": "C52", "title": "Linear element matrices are symplectic and compose over length", "statement": "The transport matrices of drift, quadrupole, sector bend and solenoid are symplectic, and the matrix for length l1+l2 is the product of those for l1 and l2.", "quantifier": "for all lengths, strengths and curvatures", "why_tests_cant": "Continuous parameters and branch changes at zero strength.", "anchors": ["Merlin++/TransportMatrix.cpp: TransportMatrix::Drift, SectorBend, QuadrupoleR, Solenoid, Srot; SBR; SolR"]}
{"id": "C53", "title": "Model construction yields a lattice in append order with consistent indices", "statement": "For every well-bracketed sequence of NewFrame/EndFrame/AppendComponent/AppendDrift/AppendFrame calls followed by GetModel, the lattice contains the appended components in call order, every component knows its own index, and the frame tree flattened gives the same order.", "quantifier": "for every well-bracketed construction sequence", "why_tests_cant": "Unbounded nesting.", "anchors": ["Merlin++/AcceleratorModelConstructor.cpp: NewFrame, EndFrame, AppendComponentFrame, AppendFrame, GetModel"]}
{"id": "C54", "title": "Tables of element repositories list each matching element once", "statement": "ElementRepository contains each added element once however often it is added; Find with a pattern appends precisely the elements whose qualified name matches.", "quantifier": "for every sequence of additions and every pattern", "why_tests_cant": "Unbounded histories.", "anchors": ["Merlin++/ElementRepository.cpp: ElementRepository::Add, ElementRepository::Find; MatchID"]}
{"id": "C55", "title": "AddRow(values...) fills the new row in column order", "statement": "If the values passed to the variadic AddRow have the types of the first columns, in order and not more than there are columns, the call succeeds, the new last row holds exactly those values in those columns, and all earlier rows, the columns and the header are unchanged.", "quantifier": "for every table reachable through the public interface and every list of values of matching types", "why_tests_cant": "Any number of columns of any mixture of types; an index slip between recursion levels shows only for particular layouts.", "anchors": ["Merlin++/DataTable.h: DataTable::AddRow, DataTable::AddRowN"]}
{"id": "C56", "title": "Component queries return exactly the matching elements in lattice order", "statement": "ExtractComponents(pattern) returns exactly the frames whose component's qualified name matches, in beamline order (also for the pattern *), and GetIndexes over a beamline slice returns, strictly increasing, exactly the lattice positions in the slice whose component matches.", "quantifier": "for every lattice, pattern and slice", "why_tests_cant": "All lattices and patterns; the special case for * must agree with the general rule.", "anchors": ["Merlin++/AcceleratorModel.cpp: AcceleratorModel::ExtractComponents, AcceleratorModel::GetIndexes"]}
{"id": "C57", "title": "Beamline indices stay equal to lattice positions", "statement": "After any use of the public interface of AcceleratorModel, the beamline index of each component frame equals its position in the lattice.", "quantifier": "for every lattice and every installed element", "why_tests_cant": "The stale indices appear only after an installation, and only for elements behind it.", "anchors": ["Merlin++/AcceleratorModel.cpp: AcceleratorModel::InstallModelElement", "Merlin++/ComponentFrame.h: ComponentFrame::GetBeamlineIndex"]}
{"id": "C58", "title": "A 2-D transformation lifted to 3-D acts the same on the plane", "statement": "Transform3D(t2d) moves the point (x,y,z) to (x',y',z) where (x',y') is the image of (x,y) under t2d.", "quantifier": "for all 2-D transformations and points", "why_tests_cant": "The two classes use different sign and order conventions, which agree on all pure displacements.", "anchors": ["Merlin++/Transform3D.h: Transform3D::Transform3D(const Transform2D&)", "Merlin++/Transform2D.h: Transform2D::operator()"]}
{"id": "C59", "title": "Shared rotations are neither used after deletion nor leaked", "statement": "In every program that creates, copies, assigns, multiplies, inverts and destroys Rotation3D objects, no operation touches a deleted representation, a representation exists exactly as long as some Rotation3D uses it, and nothing is left when all are destroyed.", "quantifier": "for every finite sequence of operations on live objects, for every pattern of sharing", "why_tests_cant": "Use after free depends on the order of copies and assignments; sequences are unbounded.", "anchors": ["Merlin++/Rotation3D.h: Rotation3D::Rotation3D, Rotation3D::~Rotation3D, Rotation3D::operator=", "Merlin++/IdentityRotation.cpp: IdentityRotation::dot"]}
{"id": "C60", "title": "Arc and straight geometries are rigid motions along their reference curve", "statement": "For ArcGeometry and RectangularGeometry, GetGeometryTransform(a,c) acts on points as GetGeometryTransform(a,b) followed by (b,c), in any order of the positions; the transform from a to a is the identity and the way back is the inverse; the total and boundary plane transforms agree with it; a position outside the extent throws BeyondExtent; on an arc the local origin moves with unit speed along the local z axis, which turns at the rate of the curvature.", "quantifier": "for every length, every non-zero curvature and all positions in the extent", "why_tests_cant": "Positions, lengths and curvatures are continuous; a sign error in one trigonometric term shows only for particular combinations.", "anchors": ["Merlin++/ArcGeometry.cpp: MakeTransform, ArcGeometry::GetGeometryTransform, GetTotalGeometryTransform", "Merlin++/RectangularGeometry.cpp: RectangularGeometry::GetGeometryTransform", "Merlin++/CenteredGeometry.h: CenteredGeometry::CheckBounds"]}
{"id": "C61", "title": "Consolidation keeps the geometry of a sequence", "statement": "After ConsolidateConstruction the total transform of a SequenceFrame is still the product of the transforms of its sub-frames, and the boundary plane transforms lead from the origin of the sequence to its entrance and exit planes.", "quantifier": "for every sequence of sub-frames, every choice of origin and any depth of nesting", "why_tests_cant": "The cached transforms depend on where the middle of the sequence falls relative to the sub-frames.", "anchors": ["Merlin++/SequenceFrame.cpp: SequenceGeometry::CalculateCachedTransforms, CalculateCentreCT, GetTotalGeometryTransform, GetGeometryTransform(BoundaryPlane)"]}
{"id": "C62", "title": "Sub-frames fill a sequence end to end", "statement": "After ConsolidateConstruction every sub-frame of a SequenceFrame begins where the previous one ends; the first begins at the lower end of the extent of the sequence and the last ends at the upper end.", "quantifier": "for every list of sub-frames and every choice of origin", "why_tests_cant": "The positions accumulate over arbitrarily many sub-frames with arbitrary extents.", "anchors": ["Merlin++/SequenceFrame.cpp: SequenceFrame::ConsolidateConstruction, AppendFrame, SequenceGeometry::GetGeometryExtent"]}
{"id": "C63", "title": "Positions add and physical transforms compose along the frame hierarchy", "statement": "GetPosition of a frame in an outer frame is its position in an intermediate frame plus the position of that frame in the outer one, and GetPhysicalTransform to the outer frame is the transform to the intermediate frame composed with that of the intermediate frame to the outer one.", "quantifier": "for every hierarchy of frames, every intermediate and outer frame in it", "why_tests_cant": "Hierarchies may be nested to any depth with arbitrary local transformations.", "anchors": ["Merlin++/LatticeFrame.cpp: LatticeFrame::GetPosition, GetPhysicalTransform"]}
{"id": "C64", "title": "Frame transformations of an undisturbed hierarchy are the identity", "statement": "If no transformation has been applied to any frame up to the specified super-frame, GetFrameTransform is the identity; in general the frame transformation after the design geometry is the physical transformation.", "quantifier": "for every frame and every super-frame of it", "why_tests_cant": "The documentation says always; it depends on the geometry transforms of all enclosing frames.", "anchors": ["Merlin++/LatticeFrame.cpp: LatticeFrame::GetFrameTransform", "Merlin++/LatticeFrame.h: class LatticeFrame documentation"]}
{"id": "C65", "title": "Boundary plane transformations lead between design and actual planes", "statement": "GetEntrancePlaneTransform leads from the design entrance plane of a frame to its actual one, including all nested frames whose boundary lies there; GetExitPlaneTransform leads from the actual exit plane back to the design one; both are the identity if nothing is displaced.", "quantifier": "for every hierarchy and every combination of local transformations", "why_tests_cant": "Any number of displaced frames may share a plane, with non-commuting transformations.", "anchors": ["Merlin++/LatticeFrame.cpp: LatticeFrame::GetBoundaryPlaneTransform, LocalBoundaryPlaneTransform", "Merlin++/LatticeFrame.h: GetEntrancePlaneTransform, GetExitPlaneTransform"]}
{"id": "C66", "title": "Channel arrays write, read and restore every parameter", "statement": "After WriteAll(v) on an array of channels of independent parameters ReadAll returns v and no other parameter has changed; IncrementAll adds to each channel its own increment; RWChannelState::Reset brings back the values at the time of caching whatever happened in between.", "quantifier": "for every machine state, channel array and vector of values", "why_tests_cant": "All machine states and intermediate changes.", "anchors": ["Merlin++/Channels.cpp: ROChannelArray::ReadAll, RWChannelArray::WriteAll, RWChannelArray::IncrementAll", "Merlin++/RWChannelState.cpp: RWChannelState::Reset, RWChannelState::CacheCurrentState"]}
{"id": "C67", "title": "The two planes of a corrector winding are independent", "statement": "Setting the X (Y) channel of a corrector winding sets the integrated field of that plane and leaves the field of the other plane alone, so that saving and resetting both channels restores the winding.", "quantifier": "for every magnet with non-zero length and every value", "why_tests_cant": "A frame condition over all states; fails only when both planes are in use.", "anchors": ["Merlin++/CorrectorWinding.cpp: CorrectorWinding::SetBx, CorrectorWinding::SetBy", "Merlin++/StdChannelDefs.cpp: ConstructChannelServer", "Merlin++/MultipoleField.cpp: MultipoleField::SetComponent"]}
{"id": "C68", "title": "The undelayed feedback converges with factor 1-g per pulse and can be undone", "statement": "When the machine responds as the response matrix says, after k pulses the distance of the actuators from their ideal settings is (1-g)^k times the initial one; RestoreActuators brings back the stored settings.", "quantifier": "for every gain, initial setting, number of pulses and machine with the given linear response", "why_tests_cant": "Unbounded number of pulses, continuous parameters.", "anchors": ["Merlin++/LinearFBSystem.cpp: LinearFBSystem::Apply, LinearFBSystem::StoreActuators, LinearFBSystem::RestoreActuators"]}
{"id": "C69", "title": "Seeding makes random streams reproducible and independent", "statement": "After RandomNG::init(seed) or reset(seed) a program that draws numbers sees the same numbers whatever was drawn before; numbers drawn from local generators do not disturb the main stream, and the stream of a local generator depends only on the master seed and its name.", "quantifier": "all engines, all seeds, all sequences of calls before and after seeding", "why_tests_cant": "reproducibility must hold for every earlier history of draws, not just for a fresh process", "anchors": ["Merlin++/RandomNG.cpp: RandomNG::reset, getLocalGenerator, resetLocalGenerator", "Merlin++/RandomNG.h"]}
{"id": "C70", "title": "The BPM buffer server keeps one attached buffer per BPM", "statement": "BPMDataBufferServer::GetDataBuffer creates at most one buffer per BPM, returns the same one ever after, and the buffer it returns receives the measurements of that BPM.", "quantifier": "all sequences of requests for any monitors, all programs that add, remove or clear buffers", "why_tests_cant": "depends on arbitrary interleaving with other calls on the same monitors", "anchors": ["Merlin++/BPMDataBufferServer.cpp: GetDataBuffer", "Merlin++/AMBufferManager.h"]}
{"id": "C71", "title": "The u-wire of the profile monitor reports the projection of the beam", "statement": "RMSProfileMonitor reports for the tilted wire the mean and the rms width of the beam projected on the wire coordinate, a width that is not negative, and continuously in the wire angle.", "quantifier": "all beams (means, sizes, correlation) and all wire angles", "why_tests_cant": "infinitely many beams and angles; errors vanish for special angles", "anchors": ["Merlin++/RMSProfileMonitor.cpp: RMSProfileMonitor::MakeMeasurement"]}
{"id": "C72", "title": "A BPM turned by 180 degrees measures reflected x", "statement": "After RotateY180 a BPM reports the horizontal position with the opposite sign.", "quantifier": "all BPM scales and all beam positions", "why_tests_cant": "relation between two configurations for every beam", "anchors": ["Merlin++/Monitor.h", "Merlin++/Monitor.cpp: RotateY180", "Merlin++/BPM.cpp: MakeMeasurement"]}
{"id": "C73", "title": "A component tracker can be used again after tracking was abandoned", "statement": "When tracking stops in the middle of a component (a process throws), a later run can prepare and track components again.", "quantifier": "for every state in which tracking was left and every component", "why_tests_cant": "Exceptions may occur at any step of any component.", "anchors": ["Merlin++/ComponentTracker.cpp: SelectIntegrator, Reset", "Merlin++/TTrackSim.h: TTrnsProc::InitialiseProcess"]}
{"id": "C74", "title": "The integrator used for a component is the last registered for its most derived class that has one", "statement": "IntegratorSet::Add keeps one integrator per component class, the last one added, and reports whether it replaced another; preparing a component selects the integrator of the most derived class of the component for which one is registered and throws UnknownComponent if there is none.", "quantifier": "for every sequence of registrations and every chain of component classes", "why_tests_cant": "Registration histories and class chains are unbounded.", "anchors": ["Merlin++/ComponentTracker.cpp: IntegratorSet::Add, SelectIntegrator", "Merlin++/ComponentTracker.h: _PREPTRACK", "Merlin++/AcceleratorComponent.cpp: PrepareTracker"]}
{"id": "C75", "title": "Tracking a beam line ends whatever processes are registered", "statement": "With any processes in the step manager (radiation with at least one step per component, one step per component for spin, collimator bins of positive length), tracking any beam line of components with an integrator ends; the tracker is called only in states in which its assertions hold, and all processes are ready for the next component.", "quantifier": "for every list of processes in any order, every beam line, every number of boundaries of the processes", "why_tests_cant": "The steps come from the interplay of the limits of all processes; a run of a test that ends says nothing about other combinations.", "anchors": ["Merlin++/ProcessStepManager.cpp: Track, ComputeMaxStepSize", "Merlin++/WakeFieldProcess.cpp", "Merlin++/SynchRadParticleProcess.cpp", "Merlin++/CollimateParticleProcess.cpp", "Merlin++/TTrackSim.h"]}
{"id": "C76", "title": "A wake field is applied exactly once per component", "statement": "In a component with a wake potential the wake is applied exactly once, for the length of the component, at its centre or exit as configured, no matter how other processes divide the component; in other components not at all.", "quantifier": "for every component, every list of steps of the step manager", "why_tests_cant": "Any division into steps can occur.", "anchors": ["Merlin++/WakeFieldProcess.cpp: SetCurrentComponent, DoProcess, GetMaxAllowedStepSize"]}
{"id": "C77", "title": "Synchrotron radiation is emitted for the whole length of a bend", "statement": "With n steps per component radiation is applied n times for length/n; with a maximum step size it is applied in pieces not longer than it that make up the length; no matter how other processes divide the component.", "quantifier": "for every bend, number of steps or maximum step, every list of steps of the step manager", "why_tests_cant": "Any division into steps can occur.", "anchors": ["Merlin++/SynchRadParticleProcess.cpp: SetCurrentComponent, DoProcess, GetMaxAllowedStepSize, SetMaxComponentStepSize"]}
{"id": "C78", "title": "Spins see the entrance fringe, the body and the exit fringe once", "statement": "In a component with a field the spin process applies the entrance fringe once, the body in pieces with the total length, and the exit fringe once, for any number of steps per component.", "quantifier": "for every component and every list of steps of the step manager", "why_tests_cant": "Any division into steps can occur.", "anchors": ["Merlin++/SpinParticleProcess.cpp: SetCurrentComponent, DoProcess, GetMaxAllowedStepSize"]}
{"id": "C79", "title": "The ring time shift of a bend is proportional to its length", "statement": "RingDeltaTProcess shifts ct of each particle in a bend by scale times length (up to the step tolerance), independent of the division into steps, and outside bends not at all.", "quantifier": "for every component and every list of steps", "why_tests_cant": "Any division into steps can occur.", "anchors": ["Merlin++/RingDeltaTProcess.cpp: SetCurrentComponent, DoProcess, GetMaxAllowedStepSize"]}
{"id": "C80", "title": "Processes acting on a whole component act once per passage", "statement": "The hollow electron lens kicks the bunch (and counts a turn) once per passage, and the monitor process writes its file once per passage, independent of other processes.", "quantifier": "for every component and every list of steps", "why_tests_cant": "Depends on the other processes registered.", "anchors": ["Merlin++/HollowELensProcess.cpp: DoProcess, GetMaxAllowedStepSize", "Merlin++/MonitorProcess.cpp: DoProcess, GetMaxAllowedStepSize"]}
{"id": "C81", "title": "Apertures are checked at the places asked for", "statement": "In a component with an aperture that is not a collimator, particles are checked at entrance, centre and exit exactly as selected, once each and in that order, no matter how other processes divide the component; and the checks do not change the transport.", "quantifier": "for every selection of places, every component, every list of steps", "why_tests_cant": "Any division into steps can occur.", "anchors": ["Merlin++/CollimateParticleProcess.cpp: SetCurrentComponent, DoProcess, SetNextS, GetMaxAllowedStepSize"]}
{"id": "C82", "title": "A collimator scatters over its whole length, each part once", "statement": "In a collimator the intervals over which particles are scattered follow one another without gap or overlap from the entrance to the exit.", "quantifier": "for every collimator length, bin size and list of steps", "why_tests_cant": "Any division into steps can occur.", "anchors": ["Merlin++/CollimateParticleProcess.cpp: DoProcess, SetNextS, GetMaxAllowedStepSize", "Merlin++/CollimateProtonProcess.cpp: DoScatter"]}
{"id": "C83", "title": "A component divider reports n equal steps not shorter than the minimum", "statement": "Between SetComponent and the end of the component ComponentDivider reports exactly n step boundaries at multiples of length/n, as long as no increment exceeds DistanceToStepBoundary; if length/n is below the minimum step the number is reduced so that steps match the minimum.", "quantifier": "for all n, lengths, minimum steps and sequences of increments", "why_tests_cant": "Sequences of increments are unbounded.", "anchors": ["Merlin++/ComponentStepper.h: ComponentDivider", "Merlin++/ComponentStepper.cpp: SetComponent, Increment, DistanceToStepBoundary"]}
{"id": "C84", "title": "Higher-order interpolation reproduces data and polynomials and has no memory", "statement": "Interpolation with order k > 1 returns y_i at x_i, is exact (with error estimate zero) for data on a polynomial of degree k, throws BadRange outside the table, and the result of a call does not depend on the calls made before although the object remembers the last segment.", "quantifier": "for every table of distinct places, every order and every sequence of arguments", "why_tests_cant": "All tables, orders and call histories; the windows of points used differ at the ends of the table.", "anchors": ["Merlin++/Interpolation.cpp: ArbSpacedData::ArbSpacedData, ArbSpacedData::ValueAt", "Merlin++/Interpolation.h: Interpolation::Method::evaluatepoly"]}
{"id": "C85", "title": "Interpolations built from arrays and from vectors agree", "statement": "An Interpolation constructed from C arrays of n points gives the same values as one constructed from vectors with the same points.", "quantifier": "for every table and every argument", "why_tests_cant": "Every evaluation has undefined behaviour, which may look right or wrong on a given platform.", "anchors": ["Merlin++/Interpolation.cpp: ArbSpacedData::ArbSpacedData(const double*, const double*, int, int)"]}
{"id": "C86", "title": "Collimator jaws let through exactly what fits through the tapered opening", "statement": "A collimator aperture accepts a particle at (x,y) and distance z into the jaws exactly when, after subtracting the offset interpolated between entrance and exit and rotating by the tilt, it lies strictly inside the width and height interpolated between entrance and exit.", "quantifier": "for all widths, heights, offsets, tilts, lengths and particle positions", "why_tests_cant": "Continuous parameters; a quick acceptance test in front of the full computation hides errors for most points.", "anchors": ["Merlin++/CollimatorAperture.cpp: CollimatorAperture, UnalignedCollimatorAperture, OneSidedUnalignedCollimatorAperture :: CheckWithinApertureBoundaries"]}
{"id": "C87", "title": "Setting a dimension of collimator jaws changes the aperture", "statement": "After SetEntranceWidth, SetEntranceHeight, SetExitWidth, SetExitHeight and the offset setters, the opening checked and the dimensions reported are the ones set.", "quantifier": "for every collimator aperture and every value set", "why_tests_cant": "Whether a member is ever read back is a matter of all observers.", "anchors": ["Merlin++/CollimatorAperture.cpp: CollimatorAperture::SetEntranceWidth, SetEntranceHeight, SetExitWidth, SetExitHeight, GetFullEntranceWidth, GetFullEntranceHeight"]}
{"id": "C88", "title": "Each element gets the aperture of its own row in the aperture table", "statement": "ConfigureElementApertures gives every component that is not a drift and has no aperture the aperture described by the table row of that element.", "quantifier": "for every aperture table and every lattice of elements one behind the other", "why_tests_cant": "Depends on which neighbours have rows in the table and on rows at equal positions.", "anchors": ["Merlin++/ApertureConfiguration.cpp: ApertureConfiguration::ApertureConfiguration, ApertureConfiguration::ConfigureElementApertures"]}
{"id": "C89", "title": "A drift gets the aperture interpolated between the rows around it", "statement": "ConfigureElementApertures gives a drift an aperture which at each place of the drift is the interpolation of the table at that place of the ring.", "quantifier": "for every table, every drift position and length, every place in the drift", "why_tests_cant": "All positions of the drift relative to table rows, including the ends of the table and rounding errors in positions.", "anchors": ["Merlin++/ApertureConfiguration.cpp: ApertureConfiguration::ConfigureElementApertures", "Merlin++/InterpolatedApertures.cpp: InterpolatorFactory::GetInstance"]}
{"id": "C90", "title": "Run starts afresh, Continue goes on, exceptions stop at the component", "statement": "Run constructs a new bunch and initialises the processes once before tracking; Continue does neither and acts on the bunch exactly as Run does; the output records exactly the components whose qualified name matches a requested pattern, in lattice order; if a process throws in a component then all earlier frames were tracked completely and nothing after the component is done, and with exception handling on the run still returns normally with the final record.", "quantifier": "for every lattice, line, simulation state, output selection and set of throwing components", "why_tests_cant": "The position of the exception and the selections are arbitrary; tests cover a few lattices.", "anchors": ["Merlin++/TrackingSimulation.cpp: TrackingSimulation::DoRun, Run, Continue, PerformTracking, SimulationOutput::DoRecord"]}
{"id": "C91", "title": "A reversed beamline is tracked from the last frame to the first", "statement": "Tracking AcceleratorModel::GetReversedBeamline() visits the frames of the model from the last one to the first one.", "quantifier": "for every lattice", "why_tests_cant": "The iteration runs past the end of the frame vector, which a test sees as arbitrary behaviour.", "anchors": ["Merlin++/AcceleratorModel.cpp: GetReversedBeamline", "Merlin++/TrackingSimulation.cpp: PerformTracking"]}
{"id": "C92", "title": "HighestMultipole and LowestMultipole give the extreme non-zero multipole index", "statement": "HighestMultipole returns the highest, LowestMultipole the lowest index with a non-zero coefficient, and queries do not change them.", "quantifier": "for every expansion", "why_tests_cant": "Universal over expansions and over the sequence of earlier queries; a null field makes LowestMultipole read past the end, which a test need not notice.", "anchors": ["Merlin++/MultipoleField.h: HighestMultipole, LowestMultipole", "Merlin++/MultipoleField.cpp: GetCoefficient"]}
{"id": "C93", "title": "The special maps for drifts and planes equal the general maps", "statement": "ApplySimpleDrift on a vector, on 4D moments and on 6D moments equals multiplication by the drift matrix R and R S R^T; the three ApplyR2Map calls for a slice equal R S R^T with the two planes as blocks; drifts with path length add up; a map applied for another reference momentum sees the same absolute momentum and keeps the deviation.", "quantifier": "for all lengths, plane matrices, vectors and covariance matrices", "why_tests_cant": "Updates in place of shared matrix elements are easy to order wrongly; equality for all matrices is algebraic.", "anchors": ["Merlin++/RMap.h: ApplySimpleDrift, ApplyR2Map, ApplyDriftWithPathLength, map_applicator_dp"]}
{"id": "C94", "title": "A copy of a linear map acts as the original", "statement": "An RMap copied or assigned acts on vectors and moments as the original does.", "quantifier": "for every map", "why_tests_cant": "The copy holds a pointer into the array of the original; a test in which both happen to be laid out favourably may pass.", "anchors": ["Merlin++/RMap.h: RMap::LinearTermArray"]}
{"id": "C95", "title": "Element matrices solve the linear equations of motion", "statement": "The 6x6 matrix of a sector bend, quadrupole or drift of length l is the transport over l of x''=-(K1+h^2)x+h*dp, y''=K1*y, ct'=-h*x; the solenoid matrix that of the motion in the field of the solenoid; pole face and axis rotations are symplectic and rotations add.", "quantifier": "for all lengths, strengths, curvatures and angles", "why_tests_cant": "Continuous parameters with five branches; a sample value does not show that the branches are limits of one another.", "anchors": ["Merlin++/TransportMatrix.cpp: SBR, SolR, TransportMatrix::SectorBend, QuadrupoleR, Drift, Srot, PoleFaceRot, Solenoid", "Merlin++/TransportMatrix.h: Srot(double, RealMatrix&)"]}
{"id": "C96", "title": "Chromatic matrices are derivatives of the element matrices", "statement": "QuadrupoleT and SectorBendT are the derivatives of the transverse element matrices with respect to the momentum deviation.", "quantifier": "for all lengths, strengths and curvatures", "why_tests_cant": "A derivative is a statement about all nearby momenta, in each branch of the strength.", "anchors": ["Merlin++/TransportMatrix.cpp: TransportMatrix::QuadrupoleT, SectorBendT", "Merlin++/MatrixMaps.cpp: RdpMtrx::Apply"]}
{"id": "C97", "title": "Accelerating structures damp both transverse planes by the energy ratio", "statement": "The determinant of each transverse plane of a cavity matrix is E0/E1, both planes are the same, and a structure without gradient is a drift.", "quantifier": "for all lengths, gradients, phases, energies and end field flags", "why_tests_cant": "Continuous parameters and combinations of flags and matrix dimensions.", "anchors": ["Merlin++/TransportMatrix.cpp: TransportMatrix::TWRFCavity, SWRFCavity", "Merlin++/TransportRMaps.cpp: TWRFCavity"]}
{"id": "C98", "title": "Sparse maps agree with the dense matrices", "statement": "The RMap and R2Map of a drift, bend, quadrupole, pole face, rotation and solenoid have the same matrix as the dense RealMatrix of the element.", "quantifier": "for all element parameters", "why_tests_cant": "Two implementations have to agree on continuous parameters in all branches.", "anchors": ["Merlin++/TransportRMaps.cpp: SROT, QR2, SBR, SolR, Drift, Quadrupole, PoleFaceRot, Solenoid", "Merlin++/TransportMatrix.cpp"]}
{"id": "C99", "title": "Changing the reference time keeps every particle's arrival time", "statement": "AdjustRefTimeToMean sets the reference time to the mean arrival time of the particles, leaves reference time minus ct of every particle unchanged, makes the mean ct zero and changes nothing else.", "quantifier": "for every non-empty bunch", "why_tests_cant": "Universal over bunches; a wrong sign of the shift is invisible for bunches with mean ct zero.", "anchors": ["Merlin++/ParticleBunch.cpp: ParticleBunch::AdjustRefTimeToMean, Mean"]}
{"id": "C100", "title": "A generated bunch has the requested particles", "statement": "ParticleBunch(np, generator, beam, filter) ends and gives np particles with the ids 0..np-1, of which the first is the centroid, all pass the filter, and the total charge is that of the beam.", "quantifier": "for every generator, filter, centroid and np", "why_tests_cant": "The loop depends on an unbounded sequence of draws and on the filter.", "anchors": ["Merlin++/ParticleBunch.cpp: ParticleBunch::ParticleBunch(size_t, const ParticleDistributionGenerator&, const BeamData&, ParticleBunchFilter*)"]}
{"id": "C101", "title": "A bunch written with Output is read back by Input", "statement": "Input of what Output wrote gives the same particles in the same order with the same ids and the same reference time and momentum.", "quantifier": "for every bunch, with and without header", "why_tests_cant": "Round trip over all bunches.", "anchors": ["Merlin++/ParticleBunch.cpp: ParticleBunch::Output, ParticleBunch::Input", "Merlin++/PSvector.cpp: operator>>"]}
{"id": "C102", "title": "A particle written with << is read back by >>", "statement": "operator>> applied to what operator<< printed returns the coordinates and the id, and a bunch can be built from a stream of printed particles.", "quantifier": "for every particle", "why_tests_cant": "Depends on the text of all coordinates and ids.", "anchors": ["Merlin++/PSvector.cpp: operator<<, operator>>", "Merlin++/ParticleBunch.cpp: ParticleBunch::ParticleBunch(double, double, std::istream&)"]}
{"id": "C103", "title": "swap exchanges the particles of two bunches", "statement": "After a.swap(b), a has the particles b had and b has those a had.", "quantifier": "for every two bunches", "why_tests_cant": "A caller that discards the second bunch does not notice.", "anchors": ["Merlin++/ParticleBunch.h: ParticleBunch::swap"]}
{"id": "C104", "title": "The total charge follows the number of particles", "statement": "A bunch constructed from an array with charge Q has the total charge Q; when particles are removed the charge is reduced in proportion.", "quantifier": "for every array and every loss", "why_tests_cant": "Universal over bunch sizes.", "anchors": ["Merlin++/ParticleBunch.cpp: ParticleBunch::GetTotalCharge, ParticleBunch::ParticleBunch(double, double, PSvectorArray&)"]}
{"id": "C105", "title": "Coupling matrices of a beam are symplectic and inverted by negating the parameters", "statement": "The coupling matrix built from the four coupling parameters of a BeamData preserves the symplectic form, the matrix built from the negated parameters is its inverse, and parameters that are not zero couple the planes.", "quantifier": "for all real values of the four coupling parameters", "why_tests_cant": "The identity needs trigonometric and hyperbolic cases for a continuum of parameters, including the surface where the determinant is zero, which sampled tests almost never hit.", "anchors": ["Merlin++/NormalTransform.cpp: CouplingMatrix", "Merlin++/NormalTransform.h"]}
{"id": "C106", "title": "The sigma matrix of a beam has the stated optics functions, emittances and dispersion", "statement": "BeamDataToSigmaMtrx of an uncoupled beam gives the moments emit*(beta, -alpha, gamma) in each plane plus D_i D_j sig_dp^2, and the normal transform preserves areas in the transverse coordinates also with coupling.", "quantifier": "for all optics functions with positive beta, all emittances, spreads and dispersions", "why_tests_cant": "It is an algebraic identity over all real parameters, of a product of four matrices with square roots.", "anchors": ["Merlin++/NormalTransform.cpp: NormalTransform, BeamDataToSigmaMtrx, InverseBetaTransform"]}
{"id": "C107", "title": "Beam parameters are recovered from the sigma matrix", "statement": "SigmaMatrixToBeamData applied to BeamDataToSigmaMtrx of a beam gives back the parameters of the beam.", "quantifier": "for all beams with positive beta functions and emittances", "why_tests_cant": "The round trip has to hold over a continuum of parameters; the exceptional set of equal emittances and the branch for rotations by coupling are easily missed by samples.", "anchors": ["Merlin++/NormalTransform.cpp: SigmaMatrixToBeamData, DecoupleSigma, ProjectedEmittance"]}
{"id": "C108", "title": "Generated bunches have the second moments of the beam they are generated from", "statement": "Particles generated from draws with mean zero and unit covariance have as means the centre of the beam and as covariances the sigma matrix of the beam.", "quantifier": "for all beams and all samples of draws with mean zero and unit covariance", "why_tests_cant": "A test sees random draws whose moments fluctuate, and can only compare within wide tolerances; the statement is exact for all samples.", "anchors": ["Merlin++/ParticleBunch.cpp: ParticleBunch::ParticleBunch(size_t, const ParticleDistributionGenerator&, const BeamData&, ParticleBunchFilter*)", "Merlin++/NormalTransform.cpp: NormalTransform, BeamDataToSigmaMtrx"]}
{"id": "C109", "title": "Losses are classified by where they happen", "statement": "A loss in the loss map is of kind collimator exactly in components of type Collimator, warm exactly when the place of the loss lies in a warm region, and cold otherwise.", "quantifier": "for all components, loss positions and lists of warm regions", "why_tests_cant": "All overlaps of components with regions; a test with components inside a region does not see that only the beginning of the component is compared.", "anchors": ["Merlin++/LossMapCollimationOutput.cpp: LossMapCollimationOutput::Dispose, SetWarmRegion"]}
{"id": "C110", "title": "The detailed loss output lists the losses in the chosen elements", "statement": "DetailedCollimationOutput records exactly the losses in elements whose name matches an identifier, in the order of the losses, with place, particle and turn, and its table shows each value under its heading.", "quantifier": "for all sequences of losses and lists of identifiers", "why_tests_cant": "All sequences of losses and identifiers.", "anchors": ["Merlin++/DetailedCollimationOutput.cpp: DetailedCollimationOutput::Dispose, DetailedCollimationOutput::Output, DetailedCollimationOutput::AddIdentifier"]}
{"id": "C111", "title": "Every lost particle is handed to the outputs once", "statement": "Each particle that collimation takes out of the bunch is given to Dispose of each output exactly once, with the position along the component where it first left the aperture.", "quantifier": "for every component, bunch, aperture and step size", "why_tests_cant": "Depends on where between the steps a particle leaves the aperture, on the length of the component and on the kind of loss.", "anchors": ["Merlin++/CollimateParticleProcess.cpp: CollimateParticleProcess::DoCollimation", "Merlin++/CollimateProtonProcess.cpp: CollimateProtonProcess::DoScatter"]}
{"id": "C112", "title": "The turn number counts the visits of the first component", "statement": "The turn recorded with a loss is the number of times the component where tracking began has been entered in this run; in a ring it is the number of the turn.", "quantifier": "for every sequence of components and every number of turns", "why_tests_cant": "Unbounded sequences of components, and names and positions that repeat.", "anchors": ["Merlin++/CollimateParticleProcess.cpp: CollimateParticleProcess::SetCurrentComponent, InitialiseProcess"]}
{"id": "C113", "title": "Hard-edge collimation is done at the points asked for", "statement": "With collimation requested at entrance, centre or exit, a component is collimated at exactly these points, once each and in order, whatever other processes make of the steps.", "quantifier": "for every component of positive length, every combination of points and every sequence of steps no longer than allowed", "why_tests_cant": "All ways to divide a component into steps.", "anchors": ["Merlin++/CollimateParticleProcess.cpp: CollimateParticleProcess::SetCurrentComponent, DoProcess, GetMaxAllowedStepSize, SetNextS"]}
{"id": "C114", "title": "A particle in a transparent jaw moves straight", "statement": "In a collimator whose material neither slows nor deflects, a particle goes straight on over the length of the step, inside or outside the jaw.", "quantifier": "for every particle, aperture, and sequence of path lengths drawn", "why_tests_cant": "Random path lengths, and particles that come out of the jaw on the way.", "anchors": ["Merlin++/CollimateProtonProcess.cpp: CollimateProtonProcess::DoScatter", "Merlin++/CollimateParticleProcess.cpp: CollimateParticleProcess::DoCollimation"]}
{"id": "C115", "title": "Absorbed particles are recorded where they are absorbed", "statement": "The position recorded for a particle absorbed in a jaw is the place where it is: never beyond the end of the collimator, and consistent with its transverse coordinates.", "quantifier": "for every particle, material and sequence of interactions", "why_tests_cant": "Random sequences of interactions; the wrong position differs by one step only.", "anchors": ["Merlin++/CollimateProtonProcess.cpp: CollimateProtonProcess::DoScatter"]}
{"id": "C116", "title": "Index lists of the user are left alone and those of the process are deleted once", "statement": "A collimation process deletes each index list it allocated exactly once, and never one that was given to it by reference.", "quantifier": "for every sequence of calls of IndexParticles", "why_tests_cant": "Sequences of calls; deleting a list that was not allocated need not show.", "anchors": ["Merlin++/CollimateParticleProcess.cpp: CollimateParticleProcess::IndexParticles, ~CollimateParticleProcess"]}
{"id": "C117", "title": "Mapping moments gives the moments of mapped particles", "statement": "Applying a matrix map to first and second moments gives the moments of the particles that result from applying the map to each particle; coordinates the matrix does not act on keep their moments.", "quantifier": "for every matrix in one, two or three degrees of freedom and every bunch", "why_tests_cant": "All matrices and all bunches, including correlations with coordinates outside of the matrix.", "anchors": ["Merlin++/MatrixMaps.cpp: TransformMoments, RMtrx::Apply"]}
{"id": "C118", "title": "A matrix map does not depend on the momentum its argument is given relative to", "statement": "Applying a map with reference momentum Pref to a particle or to moments given relative to p0 is the same as expressing them relative to Pref, applying the map, and expressing the result relative to p0 again.", "quantifier": "for all reference momenta, matrices, particles and moments", "why_tests_cant": "Needs different reference momenta and correlations that simple beams do not have.", "anchors": ["Merlin++/MatrixMaps.cpp: RMtrx::Apply, RescaleMoments", "Merlin++/MatrixMaps.h: LinMtrxBase::scaledp"]}
{"id": "C119", "title": "Multiplying matrix maps composes them", "statement": "A *= B makes of A the map that does A and then B, on particles and on moments, whatever reference momenta are involved.", "quantifier": "for all maps and arguments", "why_tests_cant": "An algebraic law over all matrices.", "anchors": ["Merlin++/MatrixMaps.cpp: RMtrx::operator*="]}
{"id": "C120", "title": "The chromatic matrix map is the matrix at the momentum of the particle", "statement": "RdpMtrx maps a particle by R + dp T with its own momentum deviation, which it keeps if the matrix has fewer than three degrees of freedom, and maps moments to the moments of the mapped particles.", "quantifier": "for all matrices, particles and bunches", "why_tests_cant": "Moments agree for single particles and differ only with a spread of momentum.", "anchors": ["Merlin++/MatrixMaps.cpp: RdpMtrx::Apply"]}
{"id": "C121", "title": "A support structure always stands where its supports are", "statement": "Whatever sequence of setting, incrementing and resetting the offsets of the supports a user makes, every local frame transformation that is asked for reflects the offsets at that moment, and a copied structure can be used like a fresh one.", "quantifier": "all sequences of operations on the supports interleaved with queries, all offsets, all orientations", "why_tests_cant": "The result is cached and the condition for its renewal depends on flags of both supports; only particular interleavings of moves and queries go wrong.", "anchors": ["Merlin++/SupportStructure.cpp:UpdateSupportTransform", "Merlin++/SupportStructure.cpp:GetLocalFrameTransform", "Merlin++/SupportStructure.cpp:SupportStructure", "Merlin++/AcceleratorSupport.h:SetOffset"]}
{"id": "C122", "title": "A girder is moved by its two supports", "statement": "The entrance of a girder moves exactly by the offset of its first support; its exit moves transversely by the offset of its second support to first order in the offsets; equal offsets translate the girder.", "quantifier": "all offsets of the two supports, all lengths of straight girders, all entrance frames", "why_tests_cant": "The statement is about a derivative and about every orientation of the entrance frame; signs of small rotations and the frame in which an offset is applied are invisible on straight or symmetric samples.", "anchors": ["Merlin++/SupportStructure.cpp:UpdateSupportTransform", "Merlin++/SupportStructure.cpp:ConsolidateConstruction"]}
{"id": "C123", "title": "Spins precess by the Thomas-BMT equation without changing length", "statement": "Through a constant field the spin of a particle satisfies dS/ds = Omega x S / c with the Thomas-BMT angular velocity, keeps its length and its component along the axis, is the same whatever the number of steps, and is turned back by the opposite field; through every magnet with fringe fields its length is kept.", "quantifier": "all fields, energies, step lengths, spins, kinds of magnets and positions in them", "why_tests_cant": "It is a differential equation and a group law over real parameters; tests sample a few rotations with tolerances.", "anchors": ["Merlin++/SpinParticleProcess.cpp:RotateSpin", "Merlin++/SpinParticleProcess.cpp:DoProcess"]}
{"id": "C124", "title": "Spin motion depends on fields relative to the beam momentum", "statement": "When the reference momentum and all fields of a magnet are scaled by the same factor and the momentum for precession is set explicitly, the motion of spins is unchanged.", "quantifier": "all magnets, factors, particles, spins and steps", "why_tests_cant": "A forgotten normalisation shows only when two beams of different momentum are compared in every kind of magnet and at its ends.", "anchors": ["Merlin++/SpinParticleProcess.cpp:DoProcess", "Merlin++/SpinParticleProcess.cpp:SetSpinMomentum"]}
{"id": "C125", "title": "Each particle of a spin bunch keeps its own spin", "statement": "After any sequence of adding, erasing, transforming, sorting, clearing and exchanging particles, the spin at each place belongs to the particle at that place, transformations turn spins by their rotation, and the average spin of unit spins is at most one and turns with them.", "quantifier": "all sequences of operations on the bunch, all transformations, all bunches", "why_tests_cant": "The two arrays can drift apart only through particular histories of calls to the base class.", "anchors": ["Merlin++/SpinParticleProcess.cpp:SpinParticleBunch", "Merlin++/ParticleBunch.h:clear", "Merlin++/ParticleBunch.h:swap"]}
{"id": "C126", "title": "Moments of a slice bunch are those of all of its charge", "statement": "For a bunch of macro-particle slices, GetMoments, GetCentroid, GetProjectedMoments and GetProjectedCentroid return the charge-weighted means and the covariances of the whole charge: the spread within the slices and the spread of their centres both contribute. The result depends on the bunch only, and the total charge is always the sum over the slices.", "quantifier": "all lists of slices with any charges and any distributions of charge that the slices stand for, all coordinates, any contents of the object that receives the result", "why_tests_cant": "A test compares a few bunches with numbers, normally with a fresh result object; that the law of total covariance holds for all distributions, and whether earlier contents of the result matter, needs a proof over all inputs.", "anchors": ["Merlin++/SMPBunch.cpp: SMPBunch::GetMoments, SMPBunch::GetProjectedMoments, SMPBunch::GetCentroid, SMPBunch::GetProjectedCentroid, SMPBunch::AddParticle", "Merlin++/SliceMacroParticle.h", "Merlin++/PSmoments.h", "Merlin++/TCovMtrx.h: TCovMtrx::Zero"]}
{"id": "C127", "title": "Adjusting the reference of a slice bunch keeps the physical bunch", "statement": "AdjustRefMomentumToMean and AdjustRefTimeToMean of a slice bunch change only the reference: afterwards the reference is the charge-weighted mean, the mean deviation is zero, and every slice has the physical momentum and time of arrival it had. AdjustCentroid moves the centroid by the given vector.", "quantifier": "all slice bunches with nonzero charge, all reference momenta and times", "why_tests_cant": "Tests of tracking use bunches with a mean deviation of zero or compare means only; the effect on each slice for every bunch is not sampled.", "anchors": ["Merlin++/SMPBunch.cpp: SMPBunch::AdjustRefMomentumToMean, SMPBunch::AdjustRefTimeToMean, SMPBunch::AdjustCentroid"]}
{"id": "C128", "title": "Slices follow coordinate transformations as their particles do", "statement": "Applying a coordinate transformation to a slice gives the slice that stands for the charges it stood for, each transformed as a single particle would be; for rotations about the axis exactly, for any angle, with all ten covariances.", "quantifier": "all displacements, all rotations about the axis, all slices and distributions of charge", "why_tests_cant": "The ten formulas for the covariances can only be sampled; whether small angles are ignored depends on a tolerance that a test with larger angles does not meet.", "anchors": ["Merlin++/SMPTransform3D.cpp: RotateMoments, SMPTransform3D::SMPTransform3D, SMPTransform3D::Apply", "Merlin++/RMap.h: R2Map::IsIdentity", "Merlin++/PSvectorTransform3D.cpp: PSvectorTransform3D::Apply", "Merlin++/SMPBunch.cpp: SMPBunch::ApplyTransformation"]}
{"id": "C129", "title": "A slice bunch written to a file is read back", "statement": "A file made by SMPBunch::Output is accepted by the constructor from a file, and the bunch read has the same reference momentum, reference time, total charge and slices (means, covariances, charge), sorted by ct; a file is rejected exactly if the header is incomplete or announces another number of rows.", "quantifier": "all slice bunches with variances that have square roots; all files", "why_tests_cant": "A round trip of examples does not show that each of the 17 columns is restored for all values and that every wrong row count is noticed.", "anchors": ["Merlin++/SMPBunch.cpp: SMPBunch::SMPBunch(const string&), SMPBunch::Output", "Merlin++/SliceMacroParticle.cpp: SliceMacroParticle::Write, SliceMacroParticle::Read"]}
{"id": "C130", "title": "A slice bunch made from beam parameters has the charge and centroid of the beam", "statement": "SMPBunchConstructor makes ns by np macro-particles whose total charge is the charge of the beam, whose centroid is that of the beam with ct and dp of mean zero, and each of which lies on the dispersion of its momentum with the transverse moments of the beam.", "quantifier": "all beam parameters, all numbers of slices and energies, any range in standard deviations", "why_tests_cant": "A test would accept the small deficit of charge within a tolerance; telescoping of the bins and the symmetry that makes the means vanish are statements about all numbers of bins.", "anchors": ["Merlin++/SMPBunchConstructor.cpp: MakeDistribution, SMPBunchConstructor::ConstructBunch", "Merlin++/erfcc.cpp: NormalBin"]}
{"id": "C131", "title": "Converting particles to slices keeps charge, centroid and reference", "statement": "ParticleBunchConverter makes n_ct by n_dp slices with the total charge, reference momentum and reference time of the particles, with each particle counted in the slice that is nearest to it, and with adjust with the centroid of the particles.", "quantifier": "all particle bunches, all numbers of slices, all ranges", "why_tests_cant": "Charge is lost only for particles beyond the range, misplacement depends on where in a bin a particle is, and a bunch of one momentum divides by zero; tests with gaussian bunches do not notice.", "anchors": ["Merlin++/ParticleBunchConverter.cpp: ParticleBunchConverter"]}
{"id": "C132", "title": "Converting slices to particles keeps charge, centroid and reference", "statement": "SMPBunchConverter returns, whatever random numbers are drawn, a particle bunch with the total charge, reference momentum and reference time of the slices and, with adjust, their six-dimensional centroid.", "quantifier": "all slice bunches, all requested numbers of particles, all random numbers", "why_tests_cant": "Random output can only be compared statistically; and the undefined dereference for the last value reads a node of the set that usually looks harmless.", "anchors": ["Merlin++/SMPBunchConverter.cpp: SMPBunchConverter"]}
{"id": "C133", "title": "Random vectors have the requested mean and covariances", "statement": "MultiNormal accepts every positive definite covariance matrix (whatever was in the uninitialised part of its own matrix), refuses dimensions that do not fit, and never decomposes a matrix with a direction of negative variance; the vectors GetRandVec makes from independent numbers of mean zero and variance one have exactly the requested mean and covariances.", "quantifier": "for every dimension, every covariance matrix, every mean, every distribution of the drawn numbers with standard moments", "why_tests_cant": "A test samples a few matrices and compares sample moments within statistical errors; it cannot show the identity of the moments, nor acceptance of all positive definite matrices.", "anchors": ["Merlin++/MultiNormal.h: MultiNormal::MultiNormal, GetRandVec, CholeskyDecomp"]}
{"id": "C134", "title": "Slicing a bunch puts every particle into its slice", "statement": "ParticleBinList removes exactly the particles outside of [zmin, zmax) and returns their number, sorts the others, returns nbins+1 boundaries such that slice i holds exactly the particles with zmin+i*dz <= ct < zmin+(i+1)*dz, and a distribution that is the share of each slice per width, normalised to one; with a filter it also returns the derivative of the distribution.", "quantifier": "for every bunch, range, number of bins and filter", "why_tests_cant": "Arbitrary bunches and boundaries; reading beyond the end of an array need not show in a test.", "anchors": ["Merlin++/ParticleBunchUtilities.cpp: ParticleBinList, TruncateZ"]}
{"id": "C135", "title": "A wake field changes momenta by the wake of the particles ahead", "statement": "WakeFieldProcess keeps the charge of the bunch when it cuts off tails (those outside of nsig deviations, and only those); it leaves positions alone and changes the momentum P0(1+dp) of every particle by the length times the longitudinal wake at its place (linear between slice boundaries), which is the sum over particles in its slice and ahead of it of charge times potential; transverse directions change by the transverse wake weighted with the offsets; the reference momentum follows the mean.", "quantifier": "for every bunch, potential, number of slices, length", "why_tests_cant": "Conservation and causality over all bunches and potentials.", "anchors": ["Merlin++/WakeFieldProcess.cpp: DoProcess, ApplyWakefield, Init, CalculateQdist, CalculateWakeL, CalculateWakeT"]}
{"id": "C136", "title": "Coherent radiation acts from the tail on the head", "statement": "For potentials marked as coherent synchrotron radiation, the wake at a boundary is the sum over the slices behind it of the derivative of the distribution times the potential at the (negative) distance of the slice.", "quantifier": "for every potential, distribution and boundary", "why_tests_cant": "Needs all potentials and boundaries.", "anchors": ["Merlin++/WakeFieldProcess.cpp: CalculateWakeL"]}
{"id": "C137", "title": "The distribution of a coordinate accounts for every particle", "statement": "ParticleBunchDistribution counts every particle in the closed range in the bin of its interval and the others as lost, removes exactly the lost ones if asked to, and returns a distribution normalised to one if asked to.", "quantifier": "for every bunch, coordinate, range and bin width", "why_tests_cant": "Arbitrary bunches, including particles on the edges and at the begin of the bunch.", "anchors": ["Merlin++/ParticleBunchUtilities.cpp: ParticleBunchDistribution"]}
{"id": "C138", "title": "The slices of a macro-particle bunch for wake fields share out the charge of the bunch", "statement": "SMPTracking::WakeFieldProcess puts every macro-particle into exactly one slice, in order, no slice being empty; the macro-particles of a slice of a sorted bunch are within the given width of the first of them; charge and position of a slice are the charge and the mean position of its macro-particles, so that the charges of the slices add up to that of the bunch.", "quantifier": "for all bunches of macro-particles of positive charge and all positive slice widths", "why_tests_cant": "The distribution of positions and charges over slices is arbitrary; a test fixes one bunch, and the double counting of one macro-particle changes sums by a small fraction only.", "anchors": ["Merlin++/SMPWakeFieldProcess.cpp:WakeFieldProcess::PrepSlices"]}
{"id": "C139", "title": "The wake of a macro-particle bunch kicks every slice by the charges ahead of it", "statement": "Applying the wake of a cavity changes the momenta of the macro-particles of a slice by the wakes of the slices ahead of it (and by half that of their own slice along the bunch), never by those behind; momenta transverse to the beam change by the charge weighted offsets of all macro-particles ahead; numbers, order, charges and places stay; the second moments are those of slopes scaled by the ratio of the momenta.", "quantifier": "for all bunches, slices, wake potentials and reference momenta other than zero", "why_tests_cant": "Causality and additivity are statements about all bunches and all wake functions; the moment left out only matters for coupled bunches.", "anchors": ["Merlin++/SMPWakeFieldProcess.cpp:WakeFieldProcess::ApplyWakefield", "Merlin++/SMPWakeFieldProcess.cpp:AWK", "Merlin++/SMPWakeFieldProcess.cpp:GetSliceCentroid", "Merlin++/SMPWakeFieldProcess.cpp:WakeFieldProcess::PrepLWake"]}
{"id": "C140", "title": "The reference momentum loses what the macro-particles lose on average to the wake", "statement": "After the wake of a cavity has been applied to a bunch of macro-particles, the reference momentum has changed by the charge weighted mean of the changes of the momenta.", "quantifier": "for all bunches and longitudinal wake potentials", "why_tests_cant": "It relates sums over pairs of slices to a sum over macro-particles for any charges; a test only sees one bunch up to a tolerance.", "anchors": ["Merlin++/SMPWakeFieldProcess.cpp:WakeFieldProcess::PrepLWake", "Merlin++/SMPWakeFieldProcess.cpp:WakeFieldProcess::ApplyWakefield"]}
{"id": "C141", "title": "Transverse collimator wakes are gradients of multipole potentials and know no direction", "statement": "The transverse kick of CollimatorWakeProcess in mode m is the gradient of the potential Re(conj(C + iS) (x + iy)^m) of the moments of the particles of the same slice and of those ahead; the kicks of a bunch turned about the axis are the turned kicks; places stay.", "quantifier": "for all bunches, numbers of modes, wake functions and angles", "why_tests_cant": "Derivatives and invariance under all rotations are not statements about a finite number of bunches.", "anchors": ["Merlin++/CollimatorWakeProcess.cpp:CollimatorWakeProcess::ApplyWakefield", "Merlin++/CollimatorWakeProcess.cpp:CollimatorWakeProcess::CalculateCm", "Merlin++/CollimatorWakeProcess.cpp:CollimatorWakeProcess::CalculateSm", "Merlin++/CollimatorWakeProcess.cpp:CollimatorWakeProcess::CalculateWakeT"]}
{"id": "C142", "title": "Longitudinal collimator wakes only depend on the angle between particle and source", "statement": "The momentum which a particle loses to the wake of a collimator in mode m is proportional to Re(conj(x + iy)^m (C + iS)), so it is the same for a bunch turned about the axis.", "quantifier": "for all bunches, modes and longitudinal wake functions", "why_tests_cant": "A test with a bunch offset in the horizontal plane agrees; only bunches out of the plane, for every angle, show the sign.", "anchors": ["Merlin++/CollimatorWakeProcess.cpp:CollimatorWakeProcess::ApplyWakefield", "Merlin++/CollimatorWakeProcess.cpp:CollimatorWakeProcess::CalculateWakeL"]}
{"id": "C143", "title": "A particle which radiates keeps its direction and loses the energy of its photons", "statement": "In SynchRadParticleProcess a particle loses the sum of the energies of its photons (or the classical mean when no generator is set), keeps its place, and keeps its direction of flight, for canonical transverse momenta as well as for angles.", "quantifier": "for all particles, lists of photons, fields and reference momenta", "why_tests_cant": "Keeping the direction is an identity between square roots of arbitrary coordinates; a test with a small loss cannot tell it from the small error of the code for angles.", "anchors": ["Merlin++/SynchRadParticleProcess.cpp:ApplySR::operator()"]}
{"id": "C144", "title": "The reference momentum follows the mean energy loss and no particle changes its momentum by it", "statement": "After radiation with AdjustBunchReferenceEnergy the reference momentum has fallen by the mean loss of the particles, and every particle has the momentum it had minus its own loss; without it the reference stays.", "quantifier": "for all bunches and losses", "why_tests_cant": "It relates a sum over the bunch to the coordinates of every particle, for any number of particles including none.", "anchors": ["Merlin++/SynchRadParticleProcess.cpp:SynchRadParticleProcess::DoProcess", "Merlin++/ParticleBunch.cpp:ParticleBunch::AdjustRefMomentum"]}
{"id": "C145", "title": "Radiation is applied over the whole length of a magnet, however it is divided into steps", "statement": "Whatever steps other processes force upon the tracker, the lengths over which a bunch radiates in a magnet add up to the length of the magnet, and no step between two emissions is longer than the limit set.", "quantifier": "for all lengths, numbers of steps and sequences of allowed steps", "why_tests_cant": "The sequences of steps which other processes can cause are unbounded; a test runs with one set of processes.", "anchors": ["Merlin++/SynchRadParticleProcess.cpp:SynchRadParticleProcess::SetCurrentComponent", "Merlin++/SynchRadParticleProcess.cpp:SynchRadParticleProcess::DoProcess", "Merlin++/SynchRadParticleProcess.cpp:SynchRadParticleProcess::GetMaxAllowedStepSize"]}
{"id": "C146", "title": "The aperture survey reports the edge of the aperture to a micrometre", "statement": "For an aperture which is inside up to a distance r of at most a metre in each of the four directions and outside beyond, each limit of CheckAperture differs from r by at most half a micrometre; the search always ends.", "quantifier": "for all apertures with one edge in each direction", "why_tests_cant": "A test compares some apertures; the bound is for every shape and place of the edge.", "anchors": ["Merlin++/ApertureSurvey.cpp:CheckAperture"]}
{"id": "C147", "title": "The aperture survey samples every element where it says", "statement": "With points per element the points are equally spaced from entrance to exit; with a distance they are the multiples of the distance in each element and its exit, once each; with an absolute distance they are the multiples of it along the whole line, each in the element which contains it; a line whose positions agree with its lengths is never refused.", "quantifier": "for all lines and steps", "why_tests_cant": "The carry of the last sample from element to element matters for sequences of elements of any length, also shorter than the step.", "anchors": ["Merlin++/ApertureSurvey.cpp:ApertureSurvey::ApertureSurvey"]}
{"id": "C148", "title": "An accelerating structure adds energy along the axis only and damps adiabatically", "statement": "A step through an accelerating structure gives each particle the energy of the field at its time, keeps its transverse momenta and the area of phase space times the momentum, moves the reference by the energy at the phase of the structure, and gives the same result in however many steps the structure is tracked; the end fields of entrance and exit are opposite.", "quantifier": "for all particles, fields, phases, momenta and lengths of steps", "why_tests_cant": "Conservation and independence of the division into steps are algebraic identities in all coordinates; tests compare single particles up to a tolerance.", "anchors": ["Merlin++/LCAVintegrator.cpp:LCAVMap::Apply", "Merlin++/LCAVintegrator.cpp:ApplyRFMap::Apply", "Merlin++/LCAVintegrator.cpp:EntranceFieldMap::Apply", "Merlin++/LCAVintegrator.cpp:LCAVIntegrator::TrackStep"]}
{"id": "C149", "title": "A deflecting structure kicks by the field and displaces as a constant force does", "statement": "A step through a transverse RF structure changes the transverse momenta by field times length in the direction of the orientation, keeps momentum and time, and displaces a particle as a constant force over the length of the step does, so that the result does not depend on the number of steps.", "quantifier": "for all particles, fields, orientations and lengths", "why_tests_cant": "A test of the kick agrees with the code; the displacement is wrong for every kick, which only an identity in all coordinates shows.", "anchors": ["Merlin++/TransRFIntegrator.cpp:TRFMap::Apply", "Merlin++/TransRFIntegrator.cpp:TransRFIntegrator::TrackStep"]}
{"id": "C150", "title": "Inverting a matrix gives its inverse or reports that it is singular", "statement": "Inverse (and Invert) of a square matrix end with its inverse on both sides, and with a positive smallest pivot, or throw SingularMatrix; the exception comes exactly for matrices which have no inverse.", "quantifier": "for all sizes and all real or complex matrices, in exact arithmetic", "why_tests_cant": "Full pivoting with exchanges of rows has a number of orders which grows with the factorial of the size; tests see a few matrices.", "anchors": ["Merlin++/LinearAlgebra.cpp:Inverse", "Merlin++/LinearAlgebra.cpp:TLAS::Invert"]}
{"id": "C151", "title": "Symplectify makes every matrix symplectic and leaves symplectic matrices alone", "statement": "The result of Symplectify keeps the symplectic form whatever matrix is given, and a matrix which is symplectic already is returned as it is.", "quantifier": "for all six by six matrices", "why_tests_cant": "Being symplectic is an equation for all pairs of vectors, and the claim is for every matrix.", "anchors": ["Merlin++/LinearAlgebra.cpp:TLAS::Symplectify"]}
{"id": "C152", "title": "EigenSystem returns eigenvectors of the transfer matrix, normalised to the symplectic form", "statement": "For each plane of a transfer matrix EigenSystem finds an eigenvalue and an eigenvector with conj(v) s v = i, also for the identity and for lattices without coupling.", "quantifier": "for all real transfer matrices", "why_tests_cant": "The iteration and its first guess have special cases (guess is exact, norm zero, singular matrix) which sample lattices with coupling never reach.", "anchors": ["Merlin++/LinearAlgebra.cpp:TLAS::EigenSystem"]}
{"id": "C153", "title": "The LU decomposition solves linear equations and gives the determinant", "statement": "For a square matrix which maps no vector but zero to zero, LUfactor with a pivot vector of sufficient size succeeds, LUsolve with the result solves A x = b for every right side b, and the sign returned by LUfactor times the product of the diagonal is det A, whatever rows have been exchanged. SingularMatrix is thrown for singular matrices.", "quantifier": "for every size n, every regular n by n matrix over an ordered field, every pivot vector of at least n entries and every right side", "why_tests_cant": "Sizes, pivoting orders and zero patterns are unbounded; a wrong exchange or a wrong start of the forward substitution shows only for special patterns of zeros.", "anchors": ["Merlin++/TLASimp.h: LUfactor, LUsolve, LUMatrix::det", "Merlin++/TLAS.h: SingularMatrix"]}
{"id": "C154", "title": "LUMatrix, Det and the smoothing filter can be used, and the filter reproduces polynomials", "statement": "An LUMatrix object can be built from every regular matrix; the Savitzky-Golay coefficients computed by savgol for nl points to the left, nr to the right and order m, applied to the samples of a polynomial of degree at most m, give exactly its coefficient number ld.", "quantifier": "for every matrix size, and for all nl, nr, m, ld with ld <= m <= nl + nr and every polynomial of degree at most m", "why_tests_cant": "Whether an out-of-range write of a vector of size zero is noticed depends on the allocator; exactness holds for infinitely many polynomials and all window sizes.", "anchors": ["Merlin++/TLASimp.h: LUMatrix", "Merlin++/WakeFieldProcess.cpp: savgol, powi, WakeFieldProcess::SetFilter"]}
{"id": "C155", "title": "The singular value solution is the shortest least-squares solution, for systems of every shape", "statement": "Given the factors u, w, v of a matrix, SVDsolve returns a vector which minimises the sum of squares of the residuals and is the shortest one which does so; small singular values are set to zero exactly when they are not above the threshold times the largest, with an exception only for a zero matrix; systems with more or fewer equations than unknowns are accepted.", "quantifier": "for all sizes, all factors with orthonormal columns, all right sides, all competing vectors, and all lists of singular values", "why_tests_cant": "Optimality compares with infinitely many vectors; the accepted shapes are a family of sizes.", "anchors": ["Merlin++/TLASimp.h: SVDsolve, SVDMatrix::Init, SVD", "Merlin++/TMatrixLib.h: equal_length"]}
{"id": "C156", "title": "SimpleATL obeys the ATL law", "statement": "After any number of DoStep calls with non-negative time steps of total length T, the ground motions of two supports differ by a random number of mean zero and variance A*T*|s1-s2|, the vertical offsets by that plus the vibration of both; the clock shows T, the supports are handled in ascending order of arc position whatever order they were given in, and Reset restores the state of a new object.", "quantifier": "for every A >= 0, every list of supports, every sequence of non-negative time steps, every pair of supports, and every distribution of independent standard numbers", "why_tests_cant": "Variances are properties of distributions, over all orders and positions of supports and all sequences of steps; a finite sample only estimates them.", "anchors": ["Merlin++/SimpleATL.cpp: ApplyATL, SimpleATL::SimpleATL, SimpleATL::DoStep, SimpleATL::Reset", "Merlin++/AcceleratorSupport.h: AcceleratorSupport"]}
{"id": "C157", "title": "ATL2D obeys the ATL law for supports in the plane", "statement": "For supports anywhere in a plane, the vertical offsets of two supports at the time returned by DoStep differ by a random number of mean zero and variance A*T*L, where L is their direct distance, plus the vibration of both in absolute mode.", "quantifier": "for every number and arrangement of supports, every sequence of non-negative time steps, both modes, every pair of supports", "why_tests_cant": "The correlation must hold for every pair at once in every arrangement; a sample cannot tell a variance for time T from one for an earlier time after many steps.", "anchors": ["Merlin++/ATL2D.cpp: ATL2D::ATL2D, ATL2D::DoStep, ApplyATL, ATL2D::Distance", "Merlin++/ATL2D.h"]}
{"id": "C158", "title": "ATL2D settings and files are consistent", "statement": "Calls of SetATLMode and SetVibration which return false change nothing, vibration and increment mode are never active together, and an eigensystem written by RecordEigenSystem and given to the constructor is the same one.", "quantifier": "for every state, every sequence of settings and every matrix of eigenvectors", "why_tests_cant": "The order of settings matters; a round trip through a file is correct for symmetric matrices only, which small examples are.", "anchors": ["Merlin++/ATL2D.cpp: ATL2D::SetATLMode, ATL2D::SetVibration, ATL2D::RecordEigenSystem, ATL2D::ATL2D"]}
{"id": "C159", "title": "Alignment errors move exactly the elements selected", "statement": "ApplyShifts and ApplyRotations of AcceleratorErrors leave every element that the pattern does not select where it is, give every selected element exactly one shift or the three rotations about x, y, z in this order, on top of its earlier place after AddErrors and instead of it after SetErrors, and log what was applied; a name without wildcards selects the element of that name and no other, and an alternative of an OR pattern selects what it selects alone.", "quantifier": "For all beamlines (with null entries), patterns, settings, random streams and places of the elements before.", "why_tests_cant": "The selection goes through a pattern with a prefix; whether another element of the machine is selected depends on all its names. Tests apply one pattern to one small line.", "anchors": ["Merlin++/AcceleratorErrors.cpp: Errors::operator(), AcceleratorErrors::ApplyShifts, ApplyRotations", "Merlin++/AcceleratorErrors.h: SetErrors, AddErrors", "Merlin++/Transformable.cpp: Translate, RotateX, RotateY, RotateZ, ClearTransform", "Merlin++/StringPattern.cpp: StringPattern::Match"]}
{"id": "C160", "title": "Alignment errors have the rms and mean asked for and are independent", "statement": "The errors that AcceleratorErrors applies along each axis have the mean and the rms given to SetErrors, errors of different axes and of different elements are uncorrelated, and the random numbers used depend only on the number of elements selected and of axes drawn.", "quantifier": "For all rms and mean values, beamlines and patterns; expectations over all streams of independent standard numbers.", "why_tests_cant": "Moments are statements over all random streams; a test sees one sample. The threshold on the variance is far below the rms values in tests.", "anchors": ["Merlin++/AcceleratorErrors.cpp: Errors::operator()", "Merlin++/utils.h: fequal", "Merlin++/RandomNG.cpp: RandomNG::normal"]}
{"id": "C161", "title": "The NAN check reports each invalid particle once and shows its history", "statement": "NANCheckProcess reports exactly the ids of invalid particles not reported before, each once, with the right place in the bunch and, in detailed mode, the coordinates at the start of this and the previous element; it is defined for every bunch, and halts the program exactly if such a particle is found in halt mode.", "quantifier": "For all bunches, sets of reported ids, modes and tracking functions between the calls.", "why_tests_cant": "Invalid coordinates are rare and their order, ids and the state of the process at that time decide what is printed; tests with one bad particle do not reach these states.", "anchors": ["Merlin++/NANCheckProcess.cpp: NANCheckProcess::DoProcess, Report, SetCurrentComponent, is_good"]}
{"id": "C162", "title": "After the NAN check with culling no invalid particle is left", "statement": "With culling enabled, after each call of NANCheckProcess::DoProcess the bunch holds exactly its valid particles in their order; without it the bunch is unchanged; over a run no invalid particle survives an element and none is reported twice.", "quantifier": "For all runs over any number of elements with any tracking functions that make no particles, all bunches and both modes of output.", "why_tests_cant": "The claim is an invariant over all runs; the early exit for reported ids makes a later call depend on all calls before.", "anchors": ["Merlin++/NANCheckProcess.cpp: NANCheckProcess::DoProcess, DoCull"]}
{"id": "C163", "title": "Halo filters keep exactly the particles beyond the limit", "statement": "HorizontalHaloParticleBunchFilter keeps exactly the particles further from the orbit than the limit, VerticalHaloParticleBunchFilter exactly those further from the axis than the limit.", "quantifier": "For all coordinates, orbits and limits.", "why_tests_cant": "The exceptions are a set of measure zero that a random bunch never meets, though a bunch made on purpose (matched in position only) lies in it.", "anchors": ["Merlin++/BunchFilter.cpp: HorizontalHaloParticleBunchFilter::Apply, VerticalHaloParticleBunchFilter::Apply"]}
{"id": "C164", "title": "Collimator database holds the rows of its file", "statement": "The CollimatorDatabase constructor reads a file of lines of a name, numbers and a known material into exactly these rows in order, ignores an incomplete last line and leaves the material table as it is; a malformed word or an unknown material is reported.", "quantifier": "For all files (any number of lines, any names and numbers, any number of columns), all material tables.", "why_tests_cant": "Claim over all files; the failure after a malformed word silently affects all later rows with uninitialised values that may look right in a test.", "anchors": ["Merlin++/CollimatorDatabase.cpp: CollimatorDatabase::CollimatorDatabase", "Merlin++/CollimatorDatabase.h: CollimatorData"]}
{"id": "C165", "title": "Matched collimator jaws sit at the given number of sigma around the orbit", "statement": "After ConfigureCollimators with emittances and with matching of the beam envelope, each collimator named in the database lets through, at every place along it, exactly the particles within sigma_x times the beam size along its axis and sigma_y times the beam size across, about the orbit; it has the material of the database, and other collimators are left as they were.", "quantifier": "For all lattices, lattice functions, databases with different names, tilts, emittances and orbits that are not zero at both ends.", "why_tests_cant": "The claim quantifies over all optics and all places along the collimator; a test with equal beam sizes does not see that the size across is taken along the axis.", "anchors": ["Merlin++/CollimatorDatabase.cpp: CollimatorDatabase::ConfigureCollimators", "Merlin++/CollimatorAperture.cpp: CollimatorAperture::CheckWithinApertureBoundaries"]}
{"id": "C166", "title": "Parallel jaws contain the envelope, and impact parameter and errors are as asked for", "statement": "Without matching the jaws are parallel and let through all that the matched jaws let through at either end; the impact parameter returned in sigma is the opening of the primary collimator plus the depth asked for; with alignment errors each jaw is moved by an error of the given rms.", "quantifier": "For all optics, orbits, collimators, openings, random numbers and settings of errors.", "why_tests_cant": "The containment is over all particles and orbits and fails only for tilted collimators with an orbit that changes; the size of random errors needs their law.", "anchors": ["Merlin++/CollimatorDatabase.cpp: CollimatorDatabase::ConfigureCollimators", "Merlin++/RandomNG.cpp: RandomNG::normal"]}
{"id": "C167", "title": "Collimators configured in metres have the gaps and offsets of their rows", "statement": "After ConfigureCollimators(model) each collimator named in the database is open within half the gaps of its row about its offsets, in axes turned by its tilt, with the jaw angles and material of the row.", "quantifier": "For all lattices, databases with different names, tilts and particle positions.", "why_tests_cant": "Over all positions along and across the collimator; columns that are read and never used are only seen by comparing all databases that differ in them.", "anchors": ["Merlin++/CollimatorDatabase.cpp: CollimatorDatabase::ConfigureCollimators"]}
{"id": "C168", "title": "A mixture has the macroscopic properties of its parts", "statement": "MaterialData::MakeMixture stores under its name a material whose mean free path is one over the rate of interactions of all atoms of its parts in a unit of length, whose energy loss and inverse radiation length for a unit of length are the sums over the parts by their densities, and that depends on the ratios of the proportions only; MakeMixtureByWeight with the masses gives the same material; wrong lists are refused and nothing else in the table changes.", "quantifier": "For all tables, lists of known components, proportions, densities.", "why_tests_cant": "Over all compositions; number and mass fractions agree in a test with equal atomic masses.", "anchors": ["Merlin++/MaterialProperties.cpp: Mixture::Mixture, MaterialProperties::Update", "Merlin++/MaterialData.cpp: MaterialData::MakeMixture, MaterialData::MakeMixtureByWeight"]}
{"id": "C169", "title": "Nuclei of a mixture are chosen by amount and cross section", "statement": "Mixture::A_H and A_R choose the nucleus of a part with a probability proportional to the amount of the part times its cross section.", "quantifier": "For all mixtures and random numbers.", "why_tests_cant": "The claim is about probabilities over all random numbers and compositions; a wrong weight looks like a random result.", "anchors": ["Merlin++/MaterialProperties.cpp: Mixture::A_H, Mixture::A_R, Mixture::Mixture"]}
{"id": "C170", "title": "Materials are consistent after copying, setting of extra values and in the standard table", "statement": "A copy of a material and the target of an assignment are equal to the source; a value set with SetExtra is found again with GetExtra and HaveExtra and reading changes nothing; all materials of StandardMaterialData have positive mean free paths, also after UseSixTrackValues.", "quantifier": "For all materials, extra values, and all entries of the standard table.", "why_tests_cant": "Over all materials; a member that is not initialised may hold the right value in a test.", "anchors": ["Merlin++/MaterialProperties.cpp: MaterialProperties::MaterialProperties, operator=, SetExtra, GetExtra, HaveExtra, EnergyScale", "Merlin++/MaterialData.cpp: StandardMaterialData::StandardMaterialData, UseSixTrackValues"]}
{"id": "C171", "title": "Free paths and momentum transfers follow their laws", "statement": "PathLength has an exponential law with the mean free path of the material, elastic momentum transfers an exponential law with their slope, Rutherford transfers the law 1/t^2 above the minimum, diffractive masses the law 1/M^2 between 1 and 0.15 s; the slope of single diffraction joins its two ends continuously.", "quantifier": "For all random numbers, materials, energies, thresholds.", "why_tests_cant": "Laws over all random numbers and thresholds; a wrong constant in a rare range of masses looks like statistics.", "anchors": ["Merlin++/ScatteringModel.cpp: ScatteringModel::PathLength", "Merlin++/ScatteringProcess.cpp: Rutherford::Scatter, ElasticpN::Scatter, SixTrackElasticpn::Scatter, SixTrackSingleDiffractive::Scatter"]}
{"id": "C172", "title": "Scattering kicks conserve momentum transfer and energy balance", "statement": "Each scattering process turns the particle by the square root of its momentum transfer over its energy, takes exactly the energy of the recoil or of the excited mass, leaves the position, and reports the particle lost exactly if its energy falls to 0.1 GeV or the process is inelastic.", "quantifier": "For all particles, energies, masses of nuclei and random numbers.", "why_tests_cant": "An identity over all kinematics; the wrong reference energy is invisible for particles without momentum deviation.", "anchors": ["Merlin++/ScatteringProcess.cpp: ScatterStuff, Rutherford::Scatter, ElasticpN::Scatter, SingleDiffractive::Scatter, Inelastic::Scatter", "Merlin++/CollimateProtonProcess.cpp: CollimateProtonProcess::DoScatter"]}
{"id": "C173", "title": "Processes are chosen by their cross sections in the current material", "statement": "ParticleScatter chooses each process with a probability proportional to its cross section in the material given, at the energy given, whatever materials were used before; together with the mean free path each process occurs at its own rate.", "quantifier": "For all sequences of materials and energies, all cross sections and random numbers.", "why_tests_cant": "The cached tables depend on the whole sequence of calls; rates are statements about probabilities.", "anchors": ["Merlin++/ScatteringModel.cpp: ScatteringModel::ParticleScatter", "Merlin++/ScatteringModelsMerlin.cpp: ScatteringModelMerlin::Configure, ScatteringModelSixTrack::Configure"]}
{"id": "C174", "title": "Energy loss and multiple scattering in material", "statement": "EnergyLoss lowers the energy by the loss in the material for the mode of the model from the first step on, with a continuous density correction; Straggle gives angles and displacements with the moments of Highland's formula for the current material.", "quantifier": "For all materials, sequences of materials, lengths, energies and random numbers.", "why_tests_cant": "Moments over all random numbers; static variables depend on all calls before; continuity over all energies.", "anchors": ["Merlin++/ScatteringModel.cpp: ScatteringModel::EnergyLossSimple, EnergyLossFull, Straggle"]}
{"id": "C175", "title": "The closed orbit is closed", "statement": "FindClosedOrbit changes only the coordinates asked for and returns a particle which comes back to itself after one turn whenever the lattice has such a particle; w within the tolerance means that it was found, and iter counts the iterations.", "quantifier": "For all lattices (all matrices and offsets for linear ones, all maps for the stopping rule), start particles, steps, tolerances and limits.", "why_tests_cant": "All lattices, with degenerate matrices as without cavities; that a false success never occurs cannot be sampled.", "anchors": ["Merlin++/ClosedOrbit.cpp: ClosedOrbit::FindClosedOrbit"]}
{"id": "C176", "title": "The transfer matrix is the derivative of the turn on the closed orbit", "statement": "FindTM gives the matrix of the linear map exactly and that of a map of second order up to the step times the second order, at the orbit given; FindTM(M) and FindClosedOrbitTM use the settings given to the object and only those.", "quantifier": "For all lattices, orbits, steps and sequences of calls of the setters.", "why_tests_cant": "Exactness over all maps; reading a number which was never set shows only by chance.", "anchors": ["Merlin++/TransferMatrix.cpp: TransferMatrix::FindTM, FindClosedOrbitTM, Radiation, SetDelta"]}
{"id": "C177", "title": "Dispersion and RMS values", "statement": "FindDispersion gives the dispersion which repeats itself after the turn; FindRMSOrbit and FindRMSDispersion give the root of the mean square over the length, the dispersion lines give place and dispersion of the same point.", "quantifier": "For all linear lattices, steps, component lengths and orbits.", "why_tests_cant": "Identities over all lattices; the first component is a small part of the sum in a large ring.", "anchors": ["Merlin++/Dispersion.cpp: Dispersion::FindDispersion, FindRMSDispersion", "Merlin++/ClosedOrbit.cpp: ClosedOrbit::FindRMSOrbit"]}
{"id": "C178", "title": "The numbers of a row of lattice functions are what their indices say", "statement": "In a row of a LatticeFunctionTable the function (0,0,0) is the place, (i,0,0) the i-th coordinate of the orbit, (i,j,k) the sum of products of rows i and j of the matrix over the two columns of plane k, and (0,0,k) the phase in turns: the angle of the first row of the plane, in [-1e-9, 1) for the transverse planes and (-1/2, 1/2] for the third. The row has the values in the order of the functions. A longitudinal function of unstable motion is refused with an exception.", "quantifier": "for all matrices, orbits, places and lists of functions with admissible indices", "why_tests_cant": "Tests compare a few functions of a few lattices with reference files and cannot settle the branch and range of the phase for every matrix.", "anchors": ["Merlin++/LatticeFunctions.cpp: CalculateLatticeFunction::operator()"]}
{"id": "C179", "title": "Lattice functions are carried from the start to every place by the gradient of the map in between", "statement": "The matrix at the start gives the functions 2 Re(v_i conj(v_j)) of the eigenvectors and zero phases. With constant reference momentum and without symplectification the table has a row at every component and one at the end; the functions of two coordinates there are G B G^T with B those of the start and G the matrix of quotients of differences of the map from the start to the place (the transfer matrix itself in a linear lattice); beta gamma - alpha^2 is the square of a determinant.", "quantifier": "for all beamlines of components with any maps whose matrices are regular, all orbits, eigenvectors, steps and lists of admissible functions", "why_tests_cant": "The code multiplies and inverts a chain of matrices; that the chain telescopes for every lattice is an induction, a test sees only agreement within tolerances for some lattices.", "anchors": ["Merlin++/LatticeFunctions.cpp: LatticeFunctionTable::DoCalculate"]}
{"id": "C180", "title": "Lattice functions of a stable ring are periodic and the phase of the whole turn is the tune", "statement": "If the vectors are eigenvectors of the one turn matrix with eigenvalues of modulus one, the functions of two coordinates behind the turn are those at the start, and the phase of each plane there is the tune: the eigenvalue is exp(2 pi i v).", "quantifier": "for all one turn matrices, eigenvectors and planes", "why_tests_cant": "Periodicity in tests holds up to tolerances for particular rings.", "anchors": ["Merlin++/LatticeFunctions.cpp: LatticeFunctionTable::DoCalculate, CalculateLatticeFunction"]}
{"id": "C181", "title": "Behind a change of the reference momentum the lattice functions scale with the momentum", "statement": "When the reference momentum changes along the line the matrix is scaled by the root of the ratio of the momenta, so that functions of two coordinates grow as the momentum, whatever the orbit.", "quantifier": "for all beamlines, momenta and orbits", "why_tests_cant": "Tests have no acceleration, or only an orbit on the axis, where the mistake does not show.", "anchors": ["Merlin++/LatticeFunctions.cpp: LatticeFunctionTable::DoCalculate"]}
{"id": "C182", "title": "The table of lattice functions keeps its columns and gives values, places, means and derivatives of them", "statement": "Whatever functions are added or removed, the first column is the place and the table knows whether only the orbit is wanted; Value gives the entry of the row and column asked for; GetSPosIndex the first row not before a place; Mean and RMS are trapezium means within the bounds of the values, exact for linear functions; the table has a row at the end of the line; the derivative by the energy is a quotient of differences.", "quantifier": "for all sequences of calls, tables, rows and places", "why_tests_cant": "Sequences of calls and tables are unbounded; missing columns, an empty range and a zero difference of energies are undefined behaviour or no numbers, which tests do not reach.", "anchors": ["Merlin++/LatticeFunctions.cpp: LatticeFunctionTable::AddFunction, UseDefaultFunctions, UseOrbitFunctions, RemoveAllFunctions, Value, GetColumn, GetSPosIndex, Mean, RMS, CalculateEnergyDerivative, DoCalculateOrbitOnly", "Merlin++/LinearAlgebra.cpp: Symplectify"]}
{"id": "C183", "title": "PhaseAdvance counts the whole turns of the phase", "statement": "The phase advance at a row is the fraction in the table plus the number of whole turns up to this row; the advance between two rows is the difference and adds over stretches.", "quantifier": "for all sequences of phases with steps below a turn", "why_tests_cant": "Whether a turn is counted depends on where rows fall in the turn, an unbounded set of lattices.", "anchors": ["Merlin++/PhaseAdvance.cpp: PhaseAdvance::CalcIntegerPart, PhaseAdvanceBetween"]}
{"id": "C184", "title": "FFT replaces the data by their discrete Fourier transform", "statement": "BetatronTunes::FFT called with a vector of 2n numbers, read as n complex numbers x_0..x_{n-1}, leaves in the vector the n complex numbers X_q = sum_k x_k exp(2 pi i q k / n), and never reads or writes outside of the vector.", "quantifier": "for all numbers of turns n and all data", "why_tests_cant": "The transform is a claim about every vector of every length; a sample transform shows a few lengths only, and lengths which are no power of two run beyond the end of the vector without a visible failure.", "anchors": ["Merlin++/BetatronTunes.cpp: BetatronTunes::FFT"]}
{"id": "C185", "title": "The tune of a pure tone is found exactly from two neighbouring bins", "statement": "For data which are a pure tone of tune nu, filtered with the Hanning window over n turns, the interpolation between the bins beside the tone gives its distance from the bin exactly, so FindTune returns nu.", "quantifier": "for all tunes, amplitudes, phases and numbers of turns", "why_tests_cant": "Exactness for every tune between two bins is a trigonometric identity over a continuum; tests sample a few tunes with a tolerance which hides a shift by one bin at a large number of turns.", "anchors": ["Merlin++/BetatronTunes.cpp: BetatronTunes::FindTune, BetatronTunes::amp"]}
{"id": "C186", "title": "FindTunes: lost particles give zero, regular motion does not diffuse, every number of turns works", "statement": "FindTunes sets all results to zero if the particle is lost or leaves the range during the turns; for a particle which rotates with constant tunes it reports these tunes and no change of tune; without the option diffusion the change of tune is zero; and it works for any number of turns.", "quantifier": "for all trajectories and numbers of turns", "why_tests_cant": "Trajectories are infinitely many, and the failure for numbers of turns which are no power of two is undefined behaviour which a test may not notice.", "anchors": ["Merlin++/BetatronTunes.cpp: BetatronTunes::FindTunes", "Merlin++/BetatronTunes.h: dQx, dQy"]}
{"id": "C187", "title": "The integrals of the equilibrium distribution are found by refinement of the trapezoidal rule", "statement": "Successive calls of IntegrateEigenvector::trapezium with n = 1, 2, ... give the trapezoidal rule with 2^(n-1) trapezia, independently of what was integrated before; romberg extrapolates these values to the integral.", "quantifier": "for all functions, intervals and numbers of refinements", "why_tests_cant": "The refinement reuses a static value; that every sequence of refinements equals the rule is a statement by induction over all functions, and the use of elements which have never been written may go unnoticed in a run.", "anchors": ["Merlin++/EquilibriumDistribution.cpp: IntegrateEigenvector::trapezium, IntegrateEigenvector::romberg"]}
{"id": "C188", "title": "The integrand is the fifth component of the eigenvector inside of the bend", "statement": "IntegrateWithGradient::function and IntegrateZeroGradient::function take the modulus squared of the fifth component of the eigenvector transported to the place s inside of the bend with its entrance pole face, as the transport matrices of the library do it; both classes agree in the limit of zero gradient and the sign of the complex root does not matter.", "quantifier": "for all bends, gradients of either sign, places and vectors", "why_tests_cant": "Agreement of two formulas for all angles and both signs of the gradient is an identity over a continuum.", "anchors": ["Merlin++/EquilibriumDistribution.cpp: IntegrateWithGradient::function, IntegrateZeroGradient::function, IntegrateEigenvector::Integral", "Merlin++/TransportMatrix.cpp: SectorBend, PoleFaceRot"]}
{"id": "C189", "title": "Tunes and damping constants describe the eigenvalues", "statement": "CalculateDampingConstants gives tunes in [0,1) and damping constants such that the eigenvalue is exp(-damping) exp(2 pi i tune); the damping constant is positive exactly for damped motion, and after DampingTime an amplitude has fallen to 1/e.", "quantifier": "for all eigenvalues, lengths of the ring and speeds", "why_tests_cant": "The range of the tune and the round trip hold for a continuum of eigenvalues, including those below the real axis.", "anchors": ["Merlin++/EquilibriumDistribution.cpp: EquilibriumDistribution::CalculateDampingConstants, DampingTime"]}
{"id": "C190", "title": "The equilibrium emittance of a ring with bends is defined", "statement": "After CalculateDampingConstants, CalculateEmittance gives the equilibrium emittance of every ring, summed over its bends with field; without such bends it is zero.", "quantifier": "for all lattices", "why_tests_cant": "Whether the calculation is defined for every lattice cannot be seen from runs in which undefined reads happen to give numbers.", "anchors": ["Merlin++/EquilibriumDistribution.cpp: EquilibriumDistribution::CalculateEmittance"]}
{"id": "C191", "title": "The repair of R53 and R54 makes the row of the time symplectic with the vertical rows", "statement": "The new elements M(4,2) and M(4,3) in CalculateEmittance fulfil the two symplectic conditions between row 4 and rows 2 and 3, no other element is changed, and a matrix which fulfils them already stays as it is.", "quantifier": "for all matrices whose vertical block is regular", "why_tests_cant": "The formula has sixteen products; correctness for every matrix is a polynomial identity, samples without coupling leave most terms zero.", "anchors": ["Merlin++/EquilibriumDistribution.cpp: EquilibriumDistribution::CalculateEmittance"]}
{"id": "C192", "title": "BeamMoment gives the moments of a matched beam", "statement": "The moments BeamMoment(i,j) are symmetric, give no negative spread to any combination of coordinates, are reproduced by one turn, and have the emittances as their eigen emittances.", "quantifier": "for all eigenvectors, emittances and combinations of coordinates", "why_tests_cant": "Positivity quantifies over all combinations and invariance over all matrices with their eigenvectors.", "anchors": ["Merlin++/EquilibriumDistribution.cpp: EquilibriumDistribution::BeamMoment"]}
{"id": "C193", "title": "Symplectic set: a drift is flight in a straight line", "statement": "The drift of the symplectic integrator set takes a particle to the point where its straight path meets the plane at the end of the drift, with ct changed by the difference of the lengths of the reference path and the particle's path; it yields a finite result exactly for particles which move forward along the axis. Two drifts in turn are one of the summed length, and the orbit obeys Hamilton's equations with the exact Hamiltonian.", "quantifier": "all lengths and all particles", "why_tests_cant": "Tests try a few particles and lengths with a tolerance; exactness for all angles and momenta, and the domain, cannot be sampled.", "anchors": ["Merlin++/SymplecticIntegrators.cpp: DriftMap", "Merlin++/SymplecticIntegrators.cpp: DriftCI::TrackStep"]}
{"id": "C194", "title": "Symplectic set: the maps of magnets are exact motion", "statement": "The maps of a sector magnet, of a combined function magnet and of a quadrupole, including the path length, solve Hamilton's equations with the Hamiltonian to second order in the transverse coordinates and to all orders in the momentum deviation, for every length and every particle of momentum above zero; the exact map of the sector magnet solves those of the exact Hamiltonian. So a magnet cut in two acts as the whole one.", "quantifier": "all lengths, curvatures, gradients and particles", "why_tests_cant": "The formulas for ct have a dozen terms each; tests of special rays cannot show that all of them are right for all signs of the focusing.", "anchors": ["Merlin++/SymplecticIntegrators.cpp: SectorBendMap", "Merlin++/SymplecticIntegrators.cpp: SectorBendMapEF", "Merlin++/SymplecticIntegrators.cpp: CombinedFunctionSectorBendMap", "Merlin++/SymplecticIntegrators.cpp: QuadrupoleMap"]}
{"id": "C195", "title": "Symplectic set: maps and steps are symplectic", "statement": "Each map of the set (drift, sector magnet, exact sector magnet, combined function magnet, quadrupole, pole face, multipole kick of any field), the whole passage of a bend with pole faces and field errors, and a step in a travelling wave cavity keep the canonical two-form in six dimensions at every particle for which they are defined.", "quantifier": "all particles, lengths, fields, momenta and phases", "why_tests_cant": "Symplecticity is a statement on derivatives at every point of phase space; numerical checks of a Jacobian at samples only bound the error there.", "anchors": ["Merlin++/SymplecticIntegrators.cpp: SYMPLECTIC maps", "Merlin++/SymplecticIntegrators.cpp: SectorBendCI::TrackStep", "Merlin++/SymplecticIntegrators.cpp: SectorBendCI_ef::TrackStep", "Merlin++/SymplecticIntegrators.cpp: TWRFStructureCI::TrackStep"]}
{"id": "C196", "title": "Symplectic set: a bend follows its gradient and keeps its field", "statement": "A step in a bend without errors moves particles according to the curvature and the normalised gradient of its field (charge times gradient over rigidity), whatever the gradient. A step leaves the field of the magnet as it was, also when it is changed for the computation of a kick.", "quantifier": "all fields, momenta, lengths and particles", "why_tests_cant": "The choice of the map depends on exact comparisons with zero and the field is changed and put back within a step; a test sees only a few fields.", "anchors": ["Merlin++/SymplecticIntegrators.cpp: SectorBendCI::TrackStep", "Merlin++/SymplecticIntegrators.cpp: SectorBendCI_ef::TrackStep", "Merlin++/MultipoleField.cpp: GetCoefficient", "Merlin++/MultipoleField.cpp: SetCoefficient"]}
{"id": "C197", "title": "Symplectic set: cavities gain energy at the particle's phase and keep the area", "statement": "In a cavity the momentum of a particle grows by gradient times length times the cosine at the particle's phase, and in a standing wave cavity that of the reference by the value at the reference phase; areas in phase space, in units of the reference momentum, are kept or shrink in the ratio of the reference momenta.", "quantifier": "all gradients, phases, lengths and particles", "why_tests_cant": "The error of the area grows with the square of a logarithm of the gain and vanishes at one phase; a test with a weak cavity does not see it.", "anchors": ["Merlin++/SymplecticIntegrators.cpp: RFStructureMap", "Merlin++/SymplecticIntegrators.cpp: RSRFStructureMap", "Merlin++/SymplecticIntegrators.cpp: TWRFStructureCI::TrackStep", "Merlin++/SymplecticIntegrators.cpp: SWRFStructureCI::TrackStep"]}
{"id": "C198", "title": "Symplectic set: a bend acts with its actual field", "statement": "The deflection of a bend follows from its field and the momentum of the beam: if the field does not match the curvature at the reference momentum of the beam, the reference particle leaves the axis.", "quantifier": "all fields and momenta", "why_tests_cant": "Tests use magnets matched to the beam; that the field is ignored altogether shows only when two of them are compared.", "anchors": ["Merlin++/SymplecticIntegrators.cpp: SectorBendCI::TrackStep", "Merlin++/SymplecticIntegrators.cpp: SectorBendCI_ef::TrackStep"]}
{"id": "C199", "title": "Symplectic set: a tilted bend is the upright bend in turned axes", "statement": "The passage of a tilted bend is that of the upright one seen in axes turned by the tilt, for every tilt and including the pole faces.", "quantifier": "all tilts, bends and particles", "why_tests_cant": "The behaviour changes at a tilt of the size of the rounding error and pole faces and tilt seldom occur in one test.", "anchors": ["Merlin++/SymplecticIntegrators.cpp: SectorBendCI::TrackEntrance", "Merlin++/SymplecticIntegrators.cpp: SectorBendCI::TrackStep", "Merlin++/TransportMatrix.h: Srot"]}
{"id": "C200", "title": "Second order maps of straight elements follow the Lorentz equations", "statement": "The second order maps of a drift, a quadrupole and a sextupole, delay included, agree with the motion by the Lorentz equations in the field of the magnet up to terms of third order in the coordinates, for every length and every gradient, also none.", "quantifier": "all lengths, gradients and particles", "why_tests_cant": "There are forty coefficients with signs that depend on the focusing; a ray comparison with tolerance cannot separate a wrong second order term from truncation.", "anchors": ["Merlin++/BasicTransportMaps.cpp: DriftTM", "Merlin++/BasicTransportMaps.cpp: QuadrupoleTM", "Merlin++/BasicTransportMaps.cpp: SextupoleTM"]}
{"id": "C201", "title": "The second order map of a sector bend follows the Lorentz equations", "statement": "The second order map of a sector bend, delay included, agrees with the motion by the Lorentz equations up to third order for every curvature, length, energy and momentum deviation.", "quantifier": "all curvatures, lengths, energies and particles", "why_tests_cant": "Terms with the energy of the beam are invisible at high energy, where tests run; they are wrong for low energies only off momentum.", "anchors": ["Merlin++/BasicTransportMaps.cpp: SectorBendTM"]}
{"id": "C202", "title": "The second order map of a combined function bend follows the Lorentz equations", "statement": "The second order map of a bend with gradient and sextupole component, delay included, agrees with the motion by the Lorentz equations in the field that continues the one in the plane of the bend, up to third order, for all curvatures and gradients.", "quantifier": "all curvatures, gradients, lengths and particles", "why_tests_cant": "Two hundred lines of formulas generated by computer algebra; a missing term in one of forty coefficients is below any tolerance used in tests.", "anchors": ["Merlin++/BasicTransportMaps.cpp: GenSectorBendTM"]}
{"id": "C203", "title": "Pole faces are symplectic lenses and the fringes of a bend cancel", "statement": "A pole face acts to first order as a thin lens of the strength curvature times tangent of the face angle, reduced by the gap in the vertical plane; it keeps the canonical form to second order; and the fringe fields at entrance and exit of a bend of zero length with flat faces are inverse to each other, however the faces were given.", "quantifier": "all face angles, gaps, gradients and particles", "why_tests_cant": "Which end a face belongs to is a mark in a shared object; the effect is of second order and needs comparison of both ends.", "anchors": ["Merlin++/BasicTransportMaps.cpp: PoleFaceTM", "Merlin++/TransportIntegrators.cpp: SectorBendCI::ApplyPoleFaceRotation", "Merlin++/SectorBend.h: PoleFaceInfo::SetInfo"]}
{"id": "C204", "title": "Transport set: a step in a bend acts with the actual field and momentum", "statement": "A step in a bend moves particles by the Lorentz equations with the normalised field (curvature, normal and skew gradient) for beams of any momentum: a particle of the matched momentum stays on the axis and a beam of another momentum is treated as the same particles in a beam of the matched one. A step leaves the momentum of particles and the field of the magnet as they were.", "quantifier": "all fields, momenta, lengths and particles", "why_tests_cant": "The map is chosen by exact comparisons with zero, and the momentum is scaled only outside a tolerance; tests use matched magnets without skew components.", "anchors": ["Merlin++/TransportIntegrators.cpp: SectorBendCI::TrackStep", "Merlin++/TransportIntegrators.cpp: ApplyMap1", "Merlin++/SectorBend.cpp: GetMatchedMomentum"]}
{"id": "C205", "title": "Transport set: all elements use the same coordinates", "statement": "The maps of drifts and bends follow the Lorentz equations in one and the same set of transverse coordinates, so that a particle can be handed from one element to the next.", "quantifier": "all particles", "why_tests_cant": "Slopes and normalised momenta agree on momentum; each element taken alone passes its test off momentum too.", "anchors": ["Merlin++/BasicTransportMaps.cpp: DriftTM", "Merlin++/BasicTransportMaps.cpp: SectorBendTM"]}
{"id": "C206", "title": "Transport set: a tilted bend is the upright bend in turned axes", "statement": "The passage of a tilted bend is that of the upright one, pole faces included, seen in axes turned by the tilt, for every tilt and with the same sense of rotation as in the other integrator sets.", "quantifier": "all tilts, bends and particles", "why_tests_cant": "The behaviour changes at tilts of the size of the rounding error, and the sense of rotation shows only by comparison of the sets.", "anchors": ["Merlin++/TransportIntegrators.cpp: RotateBunchAboutZ", "Merlin++/TransportIntegrators.cpp: SectorBendCI::TrackEntrance", "Merlin++/TransportIntegrators.cpp: SectorBendCI::TrackExit", "Merlin++/SymplecticIntegrators.cpp: SectorBendCI::TrackEntrance"]}
{"id": "C207", "title": "A thick magnet without gradient is half a straight, the whole deflection, half a straight", "statement": "In each of the three integrator sets a rectangular multipole without gradient (second order set: without sextupole component as well) moves a particle along a straight line over half the step, changes its direction by the field at that place times the length of the step over its momentum, and moves it along a straight line over the rest; also when all coefficients are zero.", "quantifier": "all fields without gradient, lengths, charges, reference momenta and particles", "why_tests_cant": "The step changes and restores the coefficients of the shared field while it runs; whether every component acts exactly once depends on which coefficients exist, not on values a test would vary.", "anchors": ["Merlin++/StdIntegrators.cpp: RectMultipoleCI::TrackStep", "Merlin++/TransportIntegrators.cpp: RectMultipoleCI::TrackStep", "Merlin++/SymplecticIntegrators.cpp: RectMultipoleCI::TrackStep"]}
{"id": "C208", "title": "A magnet with a normal gradient alone follows the equations of motion", "statement": "In the first and the symplectic set the particles at the reference momentum follow the linear equations of motion in the gradient of the magnet over every length, and the derivative by the momentum is that of the motion in the gradient divided by the momentum; in the second order set quadrupoles and sextupoles follow the Lorentz equations to second order; areas in phase space are kept in the symplectic set.", "quantifier": "all gradients of both signs and none, lengths, charges, momenta and particles", "why_tests_cant": "The statement holds along a whole orbit and for the derivative by momentum; numbers at a few lengths cannot tell a wrong chromatic term from rounding.", "anchors": ["Merlin++/StdIntegrators.cpp: RectMultipoleCI::TrackStep", "Merlin++/TransportIntegrators.cpp: RectMultipoleCI::TrackStep", "Merlin++/SymplecticIntegrators.cpp: RectMultipoleCI::TrackStep", "Merlin++/MatrixMaps.cpp: RdpMtrx::Apply"]}
{"id": "C209", "title": "Skew magnets act with their own skew component", "statement": "A magnet whose gradient (second order set: or sextupole component) has a skew part moves particles as the field it reports by GetField2D demands, in all three sets.", "quantifier": "all complex gradients, charges, lengths and particles", "why_tests_cant": "The sense of the rotation into the axes of the magnet is invisible for every upright magnet and shows as a sign of the coupling only; small angles behave unlike all others.", "anchors": ["Merlin++/StdIntegrators.cpp: RectMultipoleCI::TrackStep", "Merlin++/TransportIntegrators.cpp: RectMultipoleCI::TrackStep", "Merlin++/SymplecticIntegrators.cpp: RectMultipoleCI::TrackStep", "Merlin++/BasicTransportMaps.cpp: Srot", "Merlin++/MultipoleField.cpp: GetField2D"]}
{"id": "C210", "title": "Magnets of length zero deflect by their integrated field", "statement": "A rectangular multipole of length zero (a thin corrector) changes the direction of a particle by its field taken as integrated strength, in all three sets.", "quantifier": "all fields, charges, momenta and particles", "why_tests_cant": "The case is a special branch present in two of three implementations; a lattice test with one set never visits the others.", "anchors": ["Merlin++/StdIntegrators.cpp: RectMultipoleCI::TrackStep", "Merlin++/TransportIntegrators.cpp: RectMultipoleCI::TrackStep", "Merlin++/SymplecticIntegrators.cpp: RectMultipoleCI::TrackStep"]}
{"id": "C211", "title": "A step through a multipole leaves field and momentum as they were", "statement": "Whenever a step through a rectangular multipole ends, the field of the magnet has its scale and all its coefficients as before and the particle has its momentum (first set: and its delay).", "quantifier": "all magnets, lengths, bunches and particles in all three sets", "why_tests_cant": "The step writes coefficients of a field shared by every later turn; a single coefficient not restored on one path would show only for fields that take that path.", "anchors": ["Merlin++/StdIntegrators.cpp: RectMultipoleCI::TrackStep", "Merlin++/TransportIntegrators.cpp: RectMultipoleCI::TrackStep", "Merlin++/SymplecticIntegrators.cpp: RectMultipoleCI::TrackStep", "Merlin++/MultipoleField.cpp: SetCoefficient"]}
{"id": "C212", "title": "Gradient and other components act together as the halves of the gradient about one deflection", "statement": "A magnet with a gradient and other components is the pure gradient over half of the step, the deflection by all the other components at that place once, and the pure gradient over the rest; particles in the plane of symmetry of a magnet without skew components stay there.", "quantifier": "all fields with a gradient, lengths, charges and particles in all three sets", "why_tests_cant": "Which component acts how often, at which place and in which direction can only be read off for fields with several components of different kinds and signs together.", "anchors": ["Merlin++/StdIntegrators.cpp: RectMultipoleCI::TrackStep", "Merlin++/TransportIntegrators.cpp: RectMultipoleCI::TrackStep", "Merlin++/SymplecticIntegrators.cpp: RectMultipoleCI::TrackStep"]}
{"id": "C213", "title": "A magnet that is switched off is a straight space", "statement": "A multipole whose scale is zero moves particles along a straight line, whatever its coefficients, in all three sets.", "quantifier": "all coefficients, lengths, bunches and particles", "why_tests_cant": "Needs a field that is zero by its scale while coefficients remain; a test which sets the coefficients to zero takes another path.", "anchors": ["Merlin++/StdIntegrators.cpp: RectMultipoleCI::TrackStep", "Merlin++/TransportIntegrators.cpp: RectMultipoleCI::TrackStep", "Merlin++/SymplecticIntegrators.cpp: RectMultipoleCI::TrackStep"]}
{"id": "C214", "title": "A hollow lens deflects by the current within the radius of the particle", "statement": "A hollow electron lens with evenly spread current, whose electrons move against the protons, changes the direction of every particle towards the axis of the lens by the electric and magnetic force of the electron current within its radius over the length of the lens; nothing else changes.", "quantifier": "all lenses with radii, current, rigidity and velocities, all bunches", "why_tests_cant": "The law must hold at every radius, across both edges of the current; a test at some radii cannot tell a wrong share of the current from a wrong constant.", "anchors": ["Merlin++/HollowELensProcess.cpp: DoProcess, CalcKickSimple, CalcThetaMax", "Merlin++/HollowElectronLens.cpp: HollowElectronLens"]}
{"id": "C215", "title": "Measured profiles of a hollow lens are integrals of their density", "statement": "With a measured profile (of either machine) the current within a radius is the integral of the piecewise linear density through the measured points, from the inner radius, divided by that over the whole profile; it grows with the radius from nothing to the whole.", "quantifier": "all inner radii, radii and both machines", "why_tests_cant": "The code writes eight antiderivatives out by hand; agreement with the integral at every radius is a statement about functions, not values.", "anchors": ["Merlin++/HollowELensProcess.cpp: CalcKickRadial"]}
{"id": "C216", "title": "Electrons attract protons whichever way they move", "statement": "A hollow lens whose electrons move with the protons deflects them towards its axis, by the electric less the magnetic force.", "quantifier": "all lenses with the electrons in the direction of the protons and all particles beyond the inner radius", "why_tests_cant": "The sign of the whole force can be checked only against the physics, and for all velocities at once.", "anchors": ["Merlin++/HollowELensProcess.cpp: CalcThetaMax", "Merlin++/HollowElectronLens.h: SetElectronDirection"]}
{"id": "C217", "title": "A hollow lens off the axis deflects towards its own centre", "statement": "A lens with horizontal or vertical offset deflects every particle along the line to the centre of the lens.", "quantifier": "all offsets and particles", "why_tests_cant": "Radius and direction come from different places in the code; both agree for centred lenses and for all particles on one line.", "anchors": ["Merlin++/HollowELensProcess.cpp: DoProcess, CalcKickSimple, CalcKickRadial", "Merlin++/HollowElectronLens.h: XOffset, YOffset"]}
{"id": "C218", "title": "The deflection by a hollow lens depends on velocity and momentum of the protons", "statement": "The velocity of the protons in the force is that of their momentum, and a particle of larger momentum is deflected less.", "quantifier": "all reference momenta and momentum deviations", "why_tests_cant": "At the energies of usual tests the velocity is that of light within rounding, whatever the units of the formula are.", "anchors": ["Merlin++/HollowELensProcess.cpp: InitialiseProcess, DoProcess", "Merlin++/PhysicalConstants.cpp: LorentzGamma, LorentzBeta"]}
{"id": "C219", "title": "Modes of a hollow lens", "statement": "After any number of turns the deflections add up to: all of them in the constant mode; as many as random numbers were not negative in the diffusive mode; one every k turns (two if k is zero) in the mode that skips turns; the sum of (1 + cos(2 pi m T t))/2 over turns t in the modulated mode, with the tune T going from the lower to the upper end of its window in steps and starting again, never leaving it.", "quantifier": "all numbers of turns, all random numbers, all windows and steps", "why_tests_cant": "Turn counters and remainders go wrong at particular turns and for steps that do not divide the window; the statement is about all turns.", "anchors": ["Merlin++/HollowELensProcess.cpp: DoProcess", "Merlin++/HollowElectronLens.cpp: SetAC, SetTurnskip"]}
{"id": "C220", "title": "What a hollow lens leaves alone, and lenses that are not complete", "statement": "In every mode order and number of particles, positions, delays and momenta stay as they were, and particles within the inner radius are not deflected; every lens that can be constructed, by hand or from a table, can be tracked.", "quantifier": "all lenses, modes and bunches", "why_tests_cant": "Members without a value have arbitrary values; a test that passes by chance says nothing.", "anchors": ["Merlin++/HollowELensProcess.cpp: DoProcess", "Merlin++/HollowElectronLens.cpp: HollowElectronLens", "Merlin++/MADInterface.cpp: HollowELensComponent::GetInstance"]}
{"id": "C221", "title": "Dividing a hollow lens into steps does not change what it does", "statement": "The deflection by a lens of given length does not depend on the number of steps in which the tracker passes it.", "quantifier": "all lenses, numbers of steps and particles", "why_tests_cant": "Tests use one step.", "anchors": ["Merlin++/HollowELensProcess.cpp: DoProcess, GetMaxAllowedStepSize"]}
{"id": "C222", "title": "The table of the profile covers the range asked for", "statement": "OutputProfile writes the deflections of both profiles at equal distances over the range from min to max in units of the beam size.", "quantifier": "all lenses and ranges", "why_tests_cant": "The table looks like a profile whatever range it covers.", "anchors": ["Merlin++/HollowELensProcess.cpp: OutputProfile"]}
{"id": "C223", "title": "Magnets of a MAD table have the fields it describes", "statement": "Each quadrupole, sextupole, octupole (normal or skew) and bend read from a table becomes one magnet of its name and length whose field, divided by the rigidity of the momentum there, is the integrated strength of the table over the length; a bend has the curvature angle over length, its gradient, its pole faces and its tilt, and bends the reference particle by its angle.", "quantifier": "all rows of these keywords with a length, bends with two rotated pole faces or none, and all momenta", "why_tests_cant": "Fields pass through units, factorials and reference radii; a test compares the numbers of some lattice with themselves.", "anchors": ["Merlin++/MADInterface.cpp: ConstructModel, TypeFactory::GetInstance, QuadrupoleComponent, SBendComponent, RBendComponent", "Merlin++/StandardMultipoles.cpp", "Merlin++/SectorBend.cpp: SetB1"]}
{"id": "C224", "title": "Thin elements, straight bends and single pole faces of a MAD table", "statement": "An element of length zero with an integrated strength, a bend of angle zero with a gradient, and a bend with one rotated pole face can be read.", "quantifier": "all such rows", "why_tests_cant": "Division by zero gives infinities that no error reports; the tables of the tests have no thin elements.", "anchors": ["Merlin++/MADInterface.cpp: QuadrupoleComponent::GetInstance, SBendComponent::GetInstance", "Merlin++/SectorBend.cpp: SetB1"]}
{"id": "C225", "title": "Kickers of a MAD table deflect by their angles", "statement": "HKICKER and VKICKER change the directions of all particles by the angle of the table (less for larger momentum), with either integrator set and of any length; KICKER and TKICKER do so in both planes.", "quantifier": "all rows, momenta and particles", "why_tests_cant": "Sign and scale of the field and of the integrators can both be wrong and agree; thin kickers take another path.", "anchors": ["Merlin++/MADInterface.cpp: HKickerComponent, VKickerComponent, init", "Merlin++/CorrectorDipoles.cpp"]}
{"id": "C226", "title": "Cavities of a MAD table accelerate by their voltage", "statement": "An RFCAVITY becomes a standing wave structure in which a particle gains VOLT sin(2 pi LAG), of the length of the table or, as a single cell, half a wave length and a drift for the rest.", "quantifier": "all frequencies, lags, voltages and lengths", "why_tests_cant": "The number of cells is rounded; it is right for the lengths of the machine tested.", "anchors": ["Merlin++/MADInterface.cpp: RFCavityComponent, RFCavityComponentSingleCell", "Merlin++/SWRFStructure.cpp"]}
{"id": "C227", "title": "A model made from a MAD table has the places and lengths of the table", "statement": "Every component is placed where those before it end; the total length is the sum of the column L.", "quantifier": "all tables", "why_tests_cant": "Length is lost only by elements the tests do not contain.", "anchors": ["Merlin++/MADInterface.cpp: ConstructModel, MonitorComponent, MarkerComponent", "Merlin++/MADInterface.h"]}
{"id": "C228", "title": "Keywords of a MAD table select the component", "statement": "Each keyword gives the component of its kind; kinds to be ignored at length zero are left out; kinds to be treated as drifts become drifts of the same name and length; all columns of strengths count.", "quantifier": "all rows and settings", "why_tests_cant": "The table of constructors and overrides interact; a test fixes a few keywords and settings.", "anchors": ["Merlin++/MADInterface.cpp: TypeOverrides, TypeFactory::GetInstance", "Merlin++/MADInterface.h: IgnoreZeroLengthType, TreatTypeAsDrift"]}
{"id": "C229", "title": "Nested lines of a MAD table become nested frames", "statement": "Lines that begin and end with a row of their name become, around what is inside, a sequence, mount, girder or mover by their prefix, a sequence if the structure is to be kept, nothing otherwise; a flat lattice has no frames.", "quantifier": "all nestings of lines to any depth", "why_tests_cant": "The rows of begin and end look the same; only induction over the nesting shows that each is taken for what it is.", "anchors": ["Merlin++/MADInterface.cpp: ConstructModel, ConstructNewFrame, EndFrame", "Merlin++/MADInterface.h: HonourMadStructure, ConstructFlatLattice"]}
{"id": "C230", "title": "One MAD interface can make several models and append tables", "statement": "After ConstructModel returns or throws it can be called again; after AppendModel of one or more tables, GetModel returns the model of all of them.", "quantifier": "all tables and orders of calls", "why_tests_cant": "A pointer that dangles often still works in a test.", "anchors": ["Merlin++/MADInterface.cpp: ConstructModel, AppendModel, GetModel"]}
{"id": "C231", "title": "Columns that are missing in a MAD table", "statement": "If a column that an element needs is missing, the parameter is zero and a warning is given (MADInterface.h); the angle of a bend may be given as K0L.", "quantifier": "all rows and columns", "why_tests_cant": "The tables of the tests have all columns.", "anchors": ["Merlin++/MADInterface.h: MADInterface", "Merlin++/MADInterface.cpp: SBendComponent::GetInstance", "Merlin++/DataTable.h: Get_d"]}
{"id": "C232", "title": "Radiation in a MAD table lowers the reference momentum bend by bend", "statement": "With radiation, the momentum after a table is that before, less for each bend what an electron radiates in it at the momentum it has there; fields of later magnets belong to the lower momentum; without radiation and in drifts it is kept.", "quantifier": "all tables, momenta and settings", "why_tests_cant": "Losses compound; a test with one bend cannot see which momentum they belong to.", "anchors": ["Merlin++/MADInterface.cpp: ConstructModel, SRdE", "Merlin++/MADInterface.h: ScaleForSynchRad"]}
{"id": "C233", "title": "The kind of a multipole row", "statement": "GetMutipoleType names the lowest order whose strength is not zero.", "quantifier": "all rows with the columns K0L to K4L", "why_tests_cant": "A test of one kind can pass with every test of the code inverted.", "anchors": ["Merlin++/MADInterface.cpp: GetMutipoleType"]}
{"id": "C234", "title": "Settings of RF structures are read back", "statement": "Frequency, wavelength, wave number, voltage and voltage phasor of an RF structure are read back after they have been set; frequency, wavelength and wave number agree with each other and the speed of light; setting one leaves the others alone, and the beam voltage is the real part of the phasor.", "quantifier": "all structures of non-zero length, all values (frequency and wavelength not zero)", "why_tests_cant": "The settings are stored in other quantities (angular frequency, amplitude, phase) and converted both ways; tests check single values.", "anchors": ["Merlin++/RFStructure.cpp: SetVoltage, SetVoltagePhasor, SetWavelength, SetK, GetBeamVoltage", "Merlin++/RFAcceleratingField.h: GetWavelength, GetK, SetFrequency"]}
{"id": "C235", "title": "The beam voltage of a travelling wave structure is the energy a particle gains from its field", "statement": "The integral of the field along the path of a particle of the speed of light which enters at time zero is the beam voltage; a particle which is late sees the phase less by the angular frequency times the delay; a transverse structure deflects by its beam voltage in the plane of its orientation.", "quantifier": "all lengths, frequencies, amplitudes, phases, orientations and delays", "why_tests_cant": "It joins the field function with the getter used for the design of linacs by an integral; tests call one or the other.", "anchors": ["Merlin++/TWRFfield.h: Ez", "Merlin++/TransRFfield.h: Er", "Merlin++/RFStructure.cpp: GetBeamVoltage"]}
{"id": "C236", "title": "Fields exert the Lorentz force", "statement": "GetForceAt of every field is the charge times electric field plus velocity times magnetic field, with the fields GetEFieldAt and GetBFieldAt report; a solenoid exerts its force at right angles to velocity and axis.", "quantifier": "all fields, points, velocities, charges and times", "why_tests_cant": "Several classes override the force separately from the fields.", "anchors": ["Merlin++/EMField.cpp: GetForceAt", "Merlin++/SWRFfield.cpp", "Merlin++/TWRFfield.cpp", "Merlin++/TransRFfield.cpp", "Merlin++/BzField.cpp"]}
{"id": "C237", "title": "Solenoids and standing wave structures turned about the vertical axis have the turned field", "statement": "After RotateY180 the field at the turned point is the turned field, at all times; turned twice, a structure of any kind or a solenoid is what it was.", "quantifier": "all structures, solenoids, points and times", "why_tests_cant": "Signs under a rotation of a vector field; tests would have to compare fields at all points.", "anchors": ["Merlin++/Solenoid.cpp: RotateY180", "Merlin++/SWRFStructure.cpp: RotateY180"]}
{"id": "C238", "title": "Travelling wave and transverse structures turned about the vertical axis have the turned field", "statement": "After RotateY180 the field at the turned point is the turned field, at all times.", "quantifier": "all structures of these kinds, points and times", "why_tests_cant": "The amplitude changes sign as it should and the field at the origin is right; only elsewhere one sees that the wave still runs in the old direction.", "anchors": ["Merlin++/TWRFStructure.cpp: RotateY180", "Merlin++/TransverseRFStructure.cpp: RotateY180"]}
{"id": "C239", "title": "Pole faces are owned by their bend, copied and deleted once", "statement": "Giving a bend two new faces deletes the old ones, each once, and marks the new ones as entrance and exit; a copy of the bend has faces of the same values in new objects, shared between both ends where they were shared; the original and its copy can be destroyed in either order without touching the faces of the other; assignment deletes the old faces and copies the values.", "quantifier": "all bends whose faces are alive, with no, one, two or a shared face, and all memories", "why_tests_cant": "Double deletions and sharing do not show in results; the space of sharing patterns is not covered by examples.", "anchors": ["Merlin++/SectorBend.h: PoleFaceInfo::Clear, SetInfo, operator=", "Merlin++/SectorBend.cpp: PoleFaceInfo::Copy"]}
{"id": "C240", "title": "Any pole faces can be set, again, alone, for both ends, and a bend assigned to itself", "statement": "A null pointer means no face at that end; setting a face which the bend already has keeps it; a bend assigned to itself keeps its faces; the face at the entrance is marked as entrance and that at the exit as exit, also if one object serves for both and after the bend has been turned.", "quantifier": "all bends and faces", "why_tests_cant": "These are uses of freed memory or of a null pointer, which may pass unnoticed.", "anchors": ["Merlin++/SectorBend.h: PoleFaceInfo::SetInfo, operator=", "Merlin++/SectorBend.cpp: RotateY180"]}
{"id": "C241", "title": "The pole faces of a turned bend focus as before", "statement": "After RotateY180 the entrance of the bend acts on a particle as its exit acted before on the mirror image of the particle.", "quantifier": "all bends with pole faces, all particles", "why_tests_cant": "Turned bends with rotated faces are rare in test lattices, and the effect is a change of vertical and horizontal focusing only.", "anchors": ["Merlin++/SectorBend.cpp: RotateY180", "Merlin++/SymplecticIntegrators.cpp: PoleFaceRotation"]}
{"id": "C242", "title": "A copy of a component is the same component", "statement": "Copy() returns a component with everything the original has: name, geometry, field, aperture, wake potentials, material, position and index.", "quantifier": "all components", "why_tests_cant": "Members which a hand-written copy constructor forgets show only where the copy is used in a collimation or wakefield simulation.", "anchors": ["Merlin++/TemplateComponents.h: TAccCompG, TAccCompGF copy constructors and operator=", "Merlin++/AcceleratorComponent.h"]}
{"id": "C243", "title": "All attributes of a component can be read", "statement": "Material, radiation length, number of radiation lengths and number of the primary pole have a value after construction; a material that has been set is read back, and gives resistive wake potentials if it conducts.", "quantifier": "all constructors and all arguments", "why_tests_cant": "Reading a member without a value returns whatever was in memory, often zero.", "anchors": ["Merlin++/AcceleratorComponent.h: constructors, GetMaterialProperties", "Merlin++/AcceleratorComponent.cpp: SetResistiveWakePotentials", "Merlin++/Collimator.cpp: Collimator", "Merlin++/RectMultipole.cpp: RectMultipole"]}
{"id": "C244", "title": "The nominal energy gain of a structure is what its field gives", "statement": "GetBeamVoltage, documented as the nominal energy gain, is the integral of the longitudinal field along the path of a particle of the speed of light, for standing wave and transverse structures too.", "quantifier": "all standing wave structures (any number of cells, frequency, amplitude, phase) and transverse structures", "why_tests_cant": "It needs the integral over the cells; the tracking code uses the same convention as the getter, so that they agree with each other.", "anchors": ["Merlin++/RFStructure.h: GetBeamVoltage", "Merlin++/SWRFfield.h: Ez", "Merlin++/SWRFStructure.cpp"]}
{"id": "C245", "title": "Field, gradient and matched momentum of a bend", "statement": "A new bend has the field it was given on its axis and no gradient, and its matched momentum is that of a particle which this field bends with its curvature; a gradient is read back and leaves the dipole field alone.", "quantifier": "all fields, curvatures and charges not zero, all gradients", "why_tests_cant": "The gradient is stored relative to the field scale; tests check single magnets.", "anchors": ["Merlin++/SectorBend.cpp: SectorBend, GetMatchedMomentum, GetB1, SetB1"]}
{"id": "C246", "title": "The main dipole field of a bend can be set and read by itself", "statement": "SetB0 sets the main dipole field and nothing else; GetB0 returns the dipole field on the axis; a magnet of field zero can be given a gradient.", "quantifier": "all bends, also turned ones and combined function magnets", "why_tests_cant": "Pure dipoles, as in the tests, have no gradient which could be scaled along.", "anchors": ["Merlin++/SectorBend.h: GetB0, SetB0", "Merlin++/MultipoleField.cpp: SetComponent, RotateY180"]}
{"id": "C247", "title": "A step in a bend leaves the momentum deviation and the magnet as they were (thin lens set)", "statement": "After a step of the thin lens integrator in a bend, every particle has the momentum deviation it had before, and the field of the magnet has the coefficients it had before, although the step changes them in between.", "quantifier": "all bends, tilts, fields, lengths, bunches and particles for which the step is defined", "why_tests_cant": "The field is changed and put back only if the magnet is split for a kick, and the tilt goes through a matrix that stays empty for small angles.", "anchors": ["Merlin++/StdIntegrators.cpp: THIN_LENS::SectorBendCI::TrackStep", "Merlin++/TransportMatrix.h: Srot"]}
{"id": "C248", "title": "The matched particle stays on the axis of a bend (thin lens set)", "statement": "A particle on the axis whose momentum matches field and curvature stays on the axis, without delay, whatever gradient and higher components the field has and whatever the reference momentum of its bunch is.", "quantifier": "all curvatures, fields without skew dipole part, tilts, lengths and reference momenta", "why_tests_cant": "It combines the scaling of momentum deviations to the matched momentum with the kick in the middle of the magnet.", "anchors": ["Merlin++/StdIntegrators.cpp: THIN_LENS::SectorBendCI::TrackStep", "Merlin++/MatrixMaps.cpp: RMtrx::Apply"]}
{"id": "C249", "title": "Steps in a bend compose (thin lens set)", "statement": "Two steps in a bend one after the other have the result of one step of their sum, tilted magnets included.", "quantifier": "all lengths, curvatures, gradients, tilts and particles, fields of dipole and gradient without skew parts", "why_tests_cant": "Processes choose the steps; tests track with one choice.", "anchors": ["Merlin++/StdIntegrators.cpp: THIN_LENS::SectorBendCI::TrackStep", "Merlin++/TransportMatrix.cpp: SectorBend"]}
{"id": "C250", "title": "Particles follow the linear equations of motion in a bend (thin lens set)", "statement": "The coordinates after a step are, as functions of its length, the solution of the linear equations of motion in the magnet: focusing by curvature and gradient, dispersion by the momentum relative to the matched momentum of the magnet, and delay by the position.", "quantifier": "all lengths, curvatures, gradients, particles and reference momenta", "why_tests_cant": "It is a differential equation for all lengths.", "anchors": ["Merlin++/StdIntegrators.cpp: THIN_LENS::SectorBendCI::TrackStep", "Merlin++/TransportMatrix.cpp: SectorBend"]}
{"id": "C251", "title": "The effect of a bend depends on the momentum of the particle only (thin lens set)", "statement": "Two descriptions of the same particle by different reference momenta and momentum deviations have the same positions and angles after a bend.", "quantifier": "all pairs of reference momentum and deviation with the same momentum, all bends, lengths and particles", "why_tests_cant": "Tests have bunches at one reference momentum.", "anchors": ["Merlin++/StdIntegrators.cpp: THIN_LENS::SectorBendCI::TrackStep", "Merlin++/MatrixMaps.h: scaledp"]}
{"id": "C252", "title": "A tilted bend acts in turned axes as an upright one (thin lens set)", "statement": "The passage of a bend with a tilt, pole faces included, is that of the same bend without tilt in axes turned by the angle of the tilt. Each pole face is a thin lens by the tangent of its angle, reduced by the fringe field in the vertical plane.", "quantifier": "all tilts, fields, pole faces, lengths and particles", "why_tests_cant": "Step and pole faces are tracked by different functions; vertical bends with pole face rotations occur in real lattices only.", "anchors": ["Merlin++/StdIntegrators.cpp: THIN_LENS::SectorBendCI::TrackStep, TrackEntrance, TrackExit, ApplyPoleFaceRotation"]}
{"id": "C253", "title": "Standing wave structures give the momentum of their voltage (thin lens set)", "statement": "Every particle gains the voltage at the phase of its arrival, the reference momentum the voltage at the phase of the structure, and the arrival times stay; this at all phases.", "quantifier": "all gradients, frequencies, phases, numbers of cells, momenta and bunches", "why_tests_cant": "The deviations are relative to the momentum before and after; the claim is about their product with it for all particles at once.", "anchors": ["Merlin++/StdIntegrators.cpp: THIN_LENS::SWRFStructureCI::TrackStep, ApplyRFdp", "Merlin++/TransportMatrix.cpp: SWRFCavity"]}
{"id": "C254", "title": "Steps in standing wave structures compose (thin lens set)", "statement": "A standing wave structure may be tracked in any steps; the particles and the reference momentum are those of one step.", "quantifier": "all steps, gradients, frequencies, phases, momenta and bunches", "why_tests_cant": "The matrix contains the logarithm of the ratio of momenta and trigonometric functions of it; that they compose holds by an algebraic identity.", "anchors": ["Merlin++/StdIntegrators.cpp: THIN_LENS::SWRFStructureCI::TrackStep", "Merlin++/TransportMatrix.cpp: SWRFCavity"]}
{"id": "C255", "title": "Monitors move the bunch straight and see it at the measurement point", "statement": "Whatever the steps in which a monitor is tracked, the bunch moves straight along its length, and what is measured is the bunch at the measurement point.", "quantifier": "all lengths, measurement points, lists of steps and bunches", "why_tests_cant": "Steps are chosen by other processes; the drift is divided at the measurement point.", "anchors": ["Merlin++/StdIntegrators.cpp: MonitorCI::TrackStep"]}
{"id": "C256", "title": "A monitor measures each bunch once", "statement": "While a bunch passes a monitor, exactly one measurement is made.", "quantifier": "all lengths, measurement points within the monitor and lists of steps which add up to its length", "why_tests_cant": "It depends on how the monitor is divided into steps, which tests do not vary.", "anchors": ["Merlin++/StdIntegrators.cpp: MonitorCI::TrackStep", "Merlin++/Monitor.cpp: SetMeasurementPt"]}
{"id": "C257", "title": "Solenoids keep angular momentum and oscillation energy, compose, and act by momentum", "statement": "A step in a solenoid keeps the canonical angular momentum, the energy of the oscillation in the rotating frame, momentum and arrival time of every particle; steps compose; the effect depends on the momentum of a particle and not on the reference momentum; weak solenoids are drifts.", "quantifier": "all fields, lengths, bunches and particles", "why_tests_cant": "Invariants of every particle for all fields and lengths; two tolerances apply to different quantities.", "anchors": ["Merlin++/StdIntegrators.cpp: SolenoidCI::TrackStep", "Merlin++/TransportMatrix.cpp: Solenoid"]}
{"id": "C258", "title": "The integrator chosen for a component belongs to its class", "statement": "The integrator chosen for a component in a set works on the class of the component or on one from which it is derived, so that the cast of the component in the integrator is right; a component whose own class has an integrator gets this one.", "quantifier": "all component classes and integrator sets", "why_tests_cant": "The cast is unchecked; it is right only by the interplay of registration, indices and the fallback to base classes for all combinations.", "anchors": ["Merlin++/ComponentTracker.cpp: SelectIntegrator, IntegratorSet::Add", "Merlin++/ComponentTracker.h: _PREPTRACK", "Merlin++/StdIntegrators.cpp, TransportIntegrators.cpp, SymplecticIntegrators.cpp, SMPComponentTracker.cpp: integrator sets"]}
{"id": "C259", "title": "Every integrator set tracks every component", "statement": "A lattice can be tracked with any of the integrator sets: each has an integrator for each kind of component.", "quantifier": "all component classes and integrator sets", "why_tests_cant": "Tests use few of the combinations; a missing one shows as an exception in the middle of a run.", "anchors": ["Merlin++/StdIntegrators.cpp, TransportIntegrators.cpp, SymplecticIntegrators.cpp, SMPComponentTracker.cpp: integrator sets", "Merlin++/AcceleratorComponent.cpp: PrepareTracker"]}
{"id": "C260", "title": "Slices in drifts, dipoles and normal gradients move as the particles they stand for", "statement": "A slice is a charge with means and second moments. After a step in a drift, or in a straight magnet with a dipole in any direction or with a normal gradient, the moments of each slice are those of the cloud it stood for, each particle of which has moved by itself according to the equation of motion in that field.", "quantifier": "all clouds with the moments of a slice and its momentum, all magnets with a dipole or a normal gradient, all lengths, momenta and bunches", "why_tests_cant": "A test compares a few moments; that they belong to one motion of all particles of any cloud is a statement about all distributions.", "anchors": ["Merlin++/SMPStdIntegrators.cpp: ThickLens, RectMultipoleCI::TrackStep, DriftCI::TrackStep", "Merlin++/RMap.h: R2Map, ApplySimpleDrift"]}
{"id": "C261", "title": "A dipole together with a normal gradient moves slices as the field does", "statement": "In a magnet with both a dipole and a normal gradient, each slice follows the motion in the combined field.", "quantifier": "all magnets with a dipole and a normal gradient, all lengths and slices", "why_tests_cant": "The deflection is put in the middle of the step; the difference vanishes with the length of the step.", "anchors": ["Merlin++/SMPStdIntegrators.cpp: ThickLens::Apply"]}
{"id": "C262", "title": "Magnets of length zero deflect as their integrated field says", "statement": "A magnet of length zero deflects all particles of a slice by its integrated field: correctors by their angle, quadrupoles as a thick quadrupole of the same integrated strength in the limit of zero length.", "quantifier": "all strengths, charges, momenta, slices", "why_tests_cant": "The sign of the focusing appears only for quadrupoles of length zero; tests use thick ones.", "anchors": ["Merlin++/SMPStdIntegrators.cpp: ThinLensKick::Apply, RectMultipoleCI::TrackStep"]}
{"id": "C263", "title": "Skew gradients move slices as the field does", "statement": "In a magnet with a skew gradient, each slice follows the motion in that field, keeps its momentum deviation and its place in the bunch, and is deflected by the dipole of the magnet as without the gradient.", "quantifier": "all gradients with an imaginary part, dipoles, lengths, slices", "why_tests_cant": "The rotation of the bunch is an empty matrix in the last two coordinates, and the sense of the rotation matters only for skew fields.", "anchors": ["Merlin++/SMPStdIntegrators.cpp: RotateBunchAboutZ, RectMultipoleCI::TrackStep", "Merlin++/TransportRMaps.cpp: Srot"]}
{"id": "C264", "title": "Slices in bends move about the circle that belongs to the field", "statement": "In a bend without tilt each slice keeps its momentum deviation, and its particles move about the circle on which a particle with the matched momentum stays, with the deviation relative to that momentum; the result does not depend on the reference momentum in which the bunch is given.", "quantifier": "all bends without tilt, gradients, reference momenta, lengths, clouds of particles", "why_tests_cant": "The reference momentum of the bunch and the matched momentum agree in almost all lattices.", "anchors": ["Merlin++/SMPStdIntegrators.cpp: SectorBendCI::TrackStep", "Merlin++/SectorBend.cpp: GetMatchedMomentum", "Merlin++/RMap.h: map_applicator_dp"]}
{"id": "C265", "title": "Tilted bends keep momentum and place of slices, and pole faces focus", "statement": "A tilted bend acts in the turned plane and keeps momentum deviation and place of slices; a pole face focuses with the curvature times the tangent of its angle, and opposite faces without fringe field cancel.", "quantifier": "all tilts, angles, fringe fields, bunches", "why_tests_cant": "Tilted bends are rare and slices with deviations are needed to see the loss.", "anchors": ["Merlin++/SMPStdIntegrators.cpp: SectorBendCI::TrackStep, ApplyPoleFaceRotation", "Merlin++/TransportRMaps.cpp: Srot, PoleFaceRot"]}
{"id": "C266", "title": "Slices in solenoids move on helices and keep momentum and place", "statement": "In a solenoid each slice keeps momentum deviation and place and its means follow the helix of the particles; a solenoid that is off is a drift.", "quantifier": "all fields, lengths, slices", "why_tests_cant": "One entry of a coupled matrix is hard to check by examples in a plane.", "anchors": ["Merlin++/SMPStdIntegrators.cpp: ApplySolenoid, SolenoidCI::TrackStep", "Merlin++/TransportRMaps.cpp: Solenoid"]}
{"id": "C267", "title": "Travelling waves give each slice the energy of its phase", "statement": "A step in a travelling wave raises the reference momentum by the field at the phase of the structure times the length, and the momentum of each slice by the field at the phase of its place; charge and place are kept. Without amplitude it is a drift.", "quantifier": "all amplitudes, frequencies, phases, lengths, bunches whose momenta do not vanish", "why_tests_cant": "Deviation and reference change together; the product must come out for every slice.", "anchors": ["Merlin++/SMPStdIntegrators.cpp: ApplyTWRF, TWRFStructureCI::TrackStep"]}
{"id": "C268", "title": "Travelling waves keep the normalised emittance of slices", "statement": "The product of emittance and momentum of each slice is the same before and after a step in a travelling wave, in both planes, with and without the fields of entrance and exit.", "quantifier": "all amplitudes, phases, lengths, slices, steps with any combination of ends", "why_tests_cant": "A determinant identity for four different matrices and all parameters.", "anchors": ["Merlin++/SMPStdIntegrators.cpp: ApplyTWRF::Apply", "Merlin++/TransportRMaps.cpp: TWRFCavity"]}
{"id": "C269", "title": "Transverse motion in travelling waves", "statement": "The transverse momentum of a slice changes only by the fields at entrance and exit, by half of the gradient times the position, and its position moves along the straight line of a particle whose momentum grows linearly.", "quantifier": "all amplitudes, phases, lengths, slices", "why_tests_cant": "The logarithm is replaced by a polynomial which is only good for small gains.", "anchors": ["Merlin++/SMPStdIntegrators.cpp: ApplyTWRF::Apply", "Merlin++/TransportRMaps.cpp: TWRFCavity, LogOnePlusX"]}
{"id": "C270", "title": "Steps of slices add", "statement": "Two steps in a magnet with a dipole or a normal gradient, or in a bend without tilt, are one step over the sum of their lengths.", "quantifier": "all divisions of a magnet into two steps, all bunches", "why_tests_cant": "The division is chosen by processes at run time.", "anchors": ["Merlin++/SMPStdIntegrators.cpp: RectMultipoleCI::TrackStep, SectorBendCI::TrackStep"]}
{"id": "C271", "title": "Slices stand for their particles through a whole line", "statement": "Through any line of drifts, magnets with dipoles or normal gradients, and bends without tilt, a slice stands at the end for the particles it stood for at the start, each having gone through the line by itself.", "quantifier": "all lines of such elements of any length, all bunches, all clouds with the moments of the slices", "why_tests_cant": "An induction over all lines and a statement about all clouds.", "anchors": ["Merlin++/SMPStdIntegrators.cpp: RectMultipoleCI::TrackStep, SectorBendCI::TrackStep, DriftCI::TrackStep"]}
{"id": "C272", "title": "The energy of a tape file follows its cavities", "statement": "While a tape file is read, the energy for which magnets are made is the initial energy plus, for every cavity so far, its voltage times the cosine of its phase less the beam loading of the bunch charge; nothing else changes it. The structure that is made gives a particle on its axis that gain.", "quantifier": "all sequences of elements, voltages, phases, losses and charges", "why_tests_cant": "The sum runs over any number of elements and is kept in a variable of the file.", "anchors": ["Merlin++/XTFFInterface.cpp: ConstructCavity, XTFFInterface::ConstructComponent"]}
{"id": "C273", "title": "Magnets of a tape file are matched to the energy at their place", "statement": "Every quadrupole, sextupole, octupole, decapole, solenoid and bend of a tape file has the field that the strength of the file gives for a particle with the energy reached at that place of the line, whatever elements are before and after it.", "quantifier": "all lines, all magnets in them", "why_tests_cant": "A statement about every place of any line.", "anchors": ["Merlin++/XTFFInterface.cpp: ConstructQuadrupole, ConstructSextupole, ConstructOctupole, ConstructDecapole, ConstructSolenoid, ConstructSectorBend, ConstructRectBend"]}
{"id": "C274", "title": "Elements of a tape file follow one another without gaps", "statement": "Every component is placed where those before it end, and each component is as long as the file says.", "quantifier": "all lines of elements", "why_tests_cant": "Sums over lines of any length; each class of component takes its arguments in its own order.", "anchors": ["Merlin++/XTFFInterface.cpp: XTFFInterface::ConstructComponent, ConstructProfileMonitor", "Merlin++/RMSProfileMonitor.h: RMSProfileMonitor"]}
{"id": "C275", "title": "Bends of a tape file have the geometry and pole faces of the file", "statement": "A sector bend has length, angle, gradient, tilt and pole faces of the file; the straight length of a rectangular bend is that between its ends, and its faces are those of the file turned by half of the angle.", "quantifier": "all lengths, angles, energies, pole faces", "why_tests_cant": "Holds for angles over a whole range; a face of angle zero is a case of its own.", "anchors": ["Merlin++/XTFFInterface.cpp: ConstructSectorBend, ConstructRectBend", "Merlin++/SectorBend.h: PoleFaceInfo::SetInfo"]}
{"id": "C276", "title": "Tilted magnets of a tape file become skew magnets", "statement": "A magnet without tilt is a normal one; a quadrupole or sextupole tilted by the angle of a skew magnet is a skew one, and its field is the turned field. Every other tilt is taken into account or refused.", "quantifier": "all tilts, strengths, energies", "why_tests_cant": "Tolerances and signs of angles; a turned field is compared at all points.", "anchors": ["Merlin++/XTFFInterface.cpp: is_skewquad, is_skewsext, ConstructSkewQuadrupole, ConstructSkewSextupole"]}
{"id": "C277", "title": "Correctors of a tape file kick as the file says", "statement": "Horizontal and vertical correctors have the kicks given in the file.", "quantifier": "all correctors and kicks", "why_tests_cant": "A test with a design lattice has no kicks.", "anchors": ["Merlin++/XTFFInterface.cpp: ConstructXcor, ConstructYcor"]}
{"id": "C278", "title": "Apertures of a tape file", "statement": "Without apertures no element has one. With them an element with a radius has a circular aperture of that radius, and a rectangular collimator stops what is outside the half widths of the file.", "quantifier": "all lines, radii and half widths", "why_tests_cant": "Particles between half width and full width are needed to see the difference.", "anchors": ["Merlin++/XTFFInterface.cpp: XTFFInterface::ConstructComponent", "Merlin++/Aperture.cpp: RectangularAperture"]}
{"id": "C279", "title": "Types treated as drifts", "statement": "A type given to TreatTypeAsDrift, in any case, becomes drifts of its length, and what becomes of other types does not change.", "quantifier": "all names of types, all elements", "why_tests_cant": "Names are changed before they are compared, for some types.", "anchors": ["Merlin++/XTFFInterface.cpp: XTFFInterface::TreatTypeAsDrift, XTFFInterface::ConstructComponent"]}
{"id": "C280", "title": "A tape file is read as it was written", "statement": "If a file has been written with the fields in their columns, then Parse reads exactly the elements written, in order, with the initial energy of the file, and returns the model of these elements; what follows the announced number of elements has no effect.", "quantifier": "all files with any number of elements and any texts that fit into their columns", "why_tests_cant": "A round trip over all contents of files.", "anchors": ["Merlin++/XTFFInterface.cpp: ParseXTFF, StringValue, RealValue, SkipLines, XTFFInterface::Parse, XTFFInterface::Parse1, XTFFInterface::ParseHeader"]}
{"id": "C281", "title": "Parse with a reference momentum uses it", "statement": "Parse(P_ref) makes the magnets for the momentum given.", "quantifier": "all files and momenta", "why_tests_cant": "With the momentum of the file both give the same.", "anchors": ["Merlin++/XTFFInterface.cpp: XTFFInterface::Parse(double), XTFFInterface::Parse1"]}
{"id": "C282", "title": "A tape file that is cut off is refused", "statement": "If the file ends before the number of elements of its first line has been read, Parse throws.", "quantifier": "all files and all places where they may end", "why_tests_cant": "The place where the file ends matters, line by line.", "anchors": ["Merlin++/XTFFInterface.cpp: XTFFInterface::Parse1, SkipLines, ParseXTFF"]}
{"id": "C283", "title": "Files appended to a model continue it", "statement": "AppendModel continues with the energy and the place reached by the files before, or begins with those of the file if it is the first; other interfaces have no effect on it.", "quantifier": "all sequences of files, all interleavings of interfaces", "why_tests_cant": "The variables are shared by all interfaces, which shows only when two are used in turn.", "anchors": ["Merlin++/XTFFInterface.cpp: XTFFInterface::AppendModel, XTFFInterface::Parse1, energy, z_total, beamload, Qt"]}
{"id": "C284", "title": "An interface can be used after an error and destroyed", "statement": "After any call, also one that has thrown, an interface can be destroyed and used again; without a file, Parse and GetModel throw.", "quantifier": "all interfaces and files", "why_tests_cant": "Dangling and null pointers need not show in a test.", "anchors": ["Merlin++/XTFFInterface.cpp: XTFFInterface::AppendModel, XTFFInterface::~XTFFInterface, XTFFInterface::GetModel, XTFFInterface::Parse"]}
{"id": "C285", "title": "Markers of a tape file make nested frames", "statement": "Without girders no frames are made. With them, pairs of markers with the same name make frames of the kind of the name, nested as the pairs are, with the elements between them inside. Lines whose markers do not pair are refused.", "quantifier": "all lines with nested frames of any depth, all names", "why_tests_cant": "An induction over all nestings.", "anchors": ["Merlin++/XTFFInterface.cpp: XTFFInterface::ConstructComponent, XTFFInterface::ConstructNewFrame", "Merlin++/AcceleratorModelConstructor.cpp: GetModel, NewFrame, EndFrame"]}
{"id": "C286", "title": "Crab cavities and rotations of the axis of a tape file", "statement": "A cavity whose name begins with CRABH or CRABV is a transverse structure with voltage, frequency and phase of the file, which deflects in the plane of its name and does not change the energy; other names that begin with CRAB are refused. A rotation of the axis has the angle of the file.", "quantifier": "all names, lengths, voltages, phases, angles", "why_tests_cant": "The decision is by single characters of names.", "anchors": ["Merlin++/XTFFInterface.cpp: ConstructCrabCavity, XTFFInterface::ConstructComponent"]}
{"id": "C287", "title": "The crab cavity process counts the turns of the bunch", "statement": "With four cavities before and four behind each interaction point, at every cavity of the n-th turn the process has turn number n, whether both points are in use or one of them, and whether the bunch starts before the first or the fifth point.", "quantifier": "all numbers of turns, all places within a turn, all settings of the process", "why_tests_cant": "The number is kept by flags and counters of the cavities passed, over any number of turns.", "anchors": ["Merlin++/CCFailureProcess.cpp: CCFailureProcess::SetCurrentComponent"]}
{"id": "C288", "title": "Crab cavities tilt the bunch by the half crossing angle", "statement": "Before a failure, each of the four cavities before an interaction point gives every particle a slope such that, with the optics of the machine, its offset at the interaction point changes by a quarter of the tilt; the tilt is the tangent of the half crossing angle times the distance from the centre, for small distances. The phase of the cavities is added.", "quantifier": "all particles, all optics, all phases, frequencies and angles, one or both points in use", "why_tests_cant": "A statement about real functions of all particles and optics.", "anchors": ["Merlin++/CCFailureProcess.cpp: CCFailureProcess::DoProcess, CalcV1, CalcM_12, ApplyPreCCKick"]}
{"id": "C289", "title": "Crab cavities of both points can be used together", "statement": "With both interaction points in use, four cavities in every set, and optics in which each cavity can be given a voltage, a run of any number of turns uses the stored data of the cavities only within its bounds.", "quantifier": "all numbers of turns, both places where a bunch may start", "why_tests_cant": "Whether an index is in its bounds depends on the order in which sets are passed.", "anchors": ["Merlin++/CCFailureProcess.cpp: CCFailureProcess::DoProcess (436-483)"]}
{"id": "C290", "title": "The cavities of the fifth point kick the bunch", "statement": "When the fifth point is in use, its cavities give the particles their slopes, with or without the first point in use.", "quantifier": "all cavities of the fifth point", "why_tests_cant": "The kick is applied in one branch only.", "anchors": ["Merlin++/CCFailureProcess.cpp: CCFailureProcess::DoProcess (391-430, 613-724)"]}
{"id": "C291", "title": "Cavities fail after the turns without failure", "statement": "In the turns without failure the cavities before an interaction point have their whole voltage; in the turns of the failure it goes down in equal steps to zero.", "quantifier": "all numbers of turns without failure, of the failure, and of the current turn", "why_tests_cant": "A statement about all turns.", "anchors": ["Merlin++/CCFailureProcess.cpp: CCFailureProcess::DoProcess (412-430)", "Merlin++/CCFailureProcess.h: SetNonFailureTurns, SetFailureTurns"]}
{"id": "C292", "title": "Without failure cavities never stop", "statement": "With the failure switched off the cavities have their whole voltage in every turn.", "quantifier": "all turns", "why_tests_cant": "Fails only after the turns of a failure that was switched off.", "anchors": ["Merlin++/CCFailureProcess.cpp: CCFailureProcess::DoProcess (312, 492, 615)", "Merlin++/CCFailureProcess.h: SetFailureOnOff"]}
{"id": "C293", "title": "The phase of crab cavities holds for all of them", "statement": "The phase given to the process holds for every cavity; with the first point alone in use, a failure shifts the phase of the cavities behind it, in equal steps up to a quarter of an oscillation, and leaves all voltages.", "quantifier": "all phases, cavities and turns", "why_tests_cant": "The phase is overwritten while the bunch passes.", "anchors": ["Merlin++/CCFailureProcess.cpp: CCFailureProcess::DoProcess (490-611)"]}
{"id": "C294", "title": "Each cavity behind an interaction point undoes one before it", "statement": "In a crossing of an interaction point at which cavities kick, the i-th cavity behind it has the voltage of the i-th before it times minus the element of the transfer matrix between these two for a slope, with the phase advance through the interaction point, and nothing of another pair; the kicks of all eight add up.", "quantifier": "all optics, all bunches, one or both points in use", "why_tests_cant": "Data of four cavities are kept in arrays while the bunch passes and used later.", "anchors": ["Merlin++/CCFailureProcess.cpp: CCFailureProcess::DoProcess, CalcM_22, CalcV2, ApplyPostCCKick"]}
{"id": "C295", "title": "The tilt of the bunch is closed behind the interaction point", "statement": "Behind the second cavity of a pair, particles move as if both cavities were not there.", "quantifier": "all optics and all phase advances between the two", "why_tests_cant": "A law about linear motion between any two places.", "anchors": ["Merlin++/CCFailureProcess.cpp: CalcM_22, CalcV2"]}
{"id": "C296", "title": "Crab cavities change slopes only", "statement": "A cavity keeps the number and order of particles and everything but one slope of each, the horizontal at the fifth and the vertical at the first interaction point.", "quantifier": "all cavities, bunches and states of the process", "why_tests_cant": "A statement about all states of the process.", "anchors": ["Merlin++/CCFailureProcess.cpp: ApplyPreCCKick, ApplyPostCCKick"]}
{"id": "C297", "title": "Only the cavities of the four sets are used", "statement": "Markers elsewhere are left alone, and a fifth cavity in a set does no harm.", "quantifier": "all places of markers", "why_tests_cant": "Depends on what was passed before.", "anchors": ["Merlin++/CCFailureProcess.cpp: CCFailureProcess::SetCurrentComponent (219-287)"]}
{"id": "C298", "title": "The frequency of crab cavities is that given to the constructor", "statement": "Particles one period of the given frequency apart are kicked alike.", "quantifier": "all frequencies and particles", "why_tests_cant": "A statement about all frequencies and times.", "anchors": ["Merlin++/CCFailureProcess.cpp: constructors of CCFailureProcess"]}
{"id": "C299", "title": "The photon spectrum is a Chebyshev series", "statement": "The spectrum of photon energies is, below six critical energies, the published combination of two Chebyshev series in the square of the energy with powers of 2/3, and from six on a Chebyshev series in the inverse energy times the root and the exponential; the series are only used for arguments between -1 and 1, and the spectrum is zero at energies not positive or from 800 on.", "quantifier": "all real energies", "why_tests_cant": "The sums are computed by a recurrence of 18 to 30 steps; that it is the series for every energy is an algebraic law.", "anchors": ["Merlin++/PhotonSpectrumGen.cpp: SynRadC"]}
{"id": "C300", "title": "The approximations lie above the photon spectrum", "statement": "The spectrum is positive between zero and 800 critical energies; from 1e-38 to one it is at most the power that approximates it, and from one on at most the exponential, so that no energy would have to be accepted with a probability above one.", "quantifier": "all energies, all lower limits up to one", "why_tests_cant": "An inequality between functions at every energy; near energy one both sides are equal.", "anchors": ["Merlin++/PhotonSpectrumGen.cpp: SynRadC, SynGenC (68-97)"]}
{"id": "C301", "title": "Photon energies follow the spectrum", "statement": "For random numbers uniform between zero and one, a round of the generator yields an energy in a given set with the probability that is the integral of the spectrum over the part of the set above the lower limit, divided by the integral of the approximation; so two sets are hit as often as their integrals of the spectrum say.", "quantifier": "all lower limits from zero to below one, all measurable sets of energies from 1e-38 on", "why_tests_cant": "A statement about measures of sets of random numbers; a test sees a sample of energies.", "anchors": ["Merlin++/PhotonSpectrumGen.cpp: SynGenC (99-117)"]}
{"id": "C302", "title": "The generator of photons returns the first energy accepted", "statement": "The energy returned is that of the first round that is accepted, all rounds before were rejected, and each round uses three random numbers: for the choice of the approximation, for the energy, and for the acceptance.", "quantifier": "all sequences of random numbers, all lower limits", "why_tests_cant": "The number of rounds has no bound.", "anchors": ["Merlin++/PhotonSpectrumGen.cpp: SynGenC (99-117)"]}
{"id": "C303", "title": "The generator of photons forgets earlier calls", "statement": "The constants kept between calls never change a result: whatever lower limits were used in earlier calls, the energies are those of the first call with this limit and these random numbers.", "quantifier": "all sequences of earlier calls, all limits and random numbers", "why_tests_cant": "Depends on the history of calls.", "anchors": ["Merlin++/PhotonSpectrumGen.cpp: SynGenC (64-98)"]}
{"id": "C304", "title": "Photon energies are finite and not below the limit", "statement": "An energy is a finite number, not below the lower limit, and is scaled with the critical energy.", "quantifier": "all sequences of random numbers from zero to one, all limits not negative", "why_tests_cant": "Goes wrong for one value of the random number only.", "anchors": ["Merlin++/PhotonSpectrumGen.cpp: SynGenC, HBSpectrumGen"]}
{"id": "C305", "title": "The quick generator of photons gives positive finite energies", "statement": "The energies of the other generator are positive and finite and fall as the random number grows; there is no upper limit.", "quantifier": "all random numbers from zero to below one, all critical energies", "why_tests_cant": "Goes wrong for one value of the random number only.", "anchors": ["Merlin++/PhotonSpectrumGen.cpp: AWSpectrumGen"]}
{"id": "C306", "title": "The kicks of couplers, their wake and the wake of the structure", "statement": "At the impulse of the process with couplers the tails are cut, positions stay, every particle loses the longitudinal wake of the particles ahead, and its direction changes by the length times a force that is, at every slice boundary but the last, the voltage times the kick of the couplers over the length, plus the charge ahead times the wake of the couplers over the length, plus the dipole wake of the particles ahead; couplers without kick and wake leave what the plain process does.", "quantifier": "all bunches, potentials, coupler functions, voltages, phases, lengths and numbers of slices for which the impulse gives numbers", "why_tests_cant": "The code divides by the charge and multiplies by it again inside nested loops over slices; that the result is the sum over particles for every bunch is an algebraic law.", "anchors": ["Merlin++/CouplerWakeFieldProcess.cpp: CouplerWakeFieldProcess::CalculateWakeT", "Merlin++/WakeFieldProcess.cpp: ApplyWakefield, DoProcess"]}
{"id": "C307", "title": "The kick of the field does not depend on the charge", "statement": "Without wakes, the kicks are those of the field alone, and neither the charge of the bunch nor the length of the component matters; this also holds for bunches without charge.", "quantifier": "all bunches, charges and lengths", "why_tests_cant": "Independence of a real parameter, with one exceptional value.", "anchors": ["Merlin++/CouplerWakeFieldProcess.cpp: CalculateWakeT (142-150)", "Merlin++/CombinedWakeRF.h (24-25)"]}
{"id": "C308", "title": "The kick of the field is that at the place of the particle", "statement": "A kick of the couplers that does not depend on place or phase reaches every particle in full, and one that grows with the phase is taken at the phase of the particle.", "quantifier": "all bunches and all particles in them", "why_tests_cant": "Holds in all slices but one; the difference is of the size of a slice and vanishes in comparisons with few particles near the centre.", "anchors": ["Merlin++/CouplerWakeFieldProcess.cpp: CalculateWakeT (132-151)", "Merlin++/WakeFieldProcess.cpp: ApplyWakefield (277-298)"]}
{"id": "C309", "title": "The phase of the coupler kick is opposite to that of the accelerating field", "statement": "The kick of the couplers is taken at the phase of the accelerating field at the same place with the other sign.", "quantifier": "all phases, wave numbers and slices", "why_tests_cant": "Depends on the sign of the phase; the usual settings have one sign only.", "anchors": ["Merlin++/CouplerWakeFieldProcess.cpp: CalculateWakeT (147)", "Merlin++/CombinedWakeRF.h: CouplerRFKick", "Merlin++/LCAVintegrator.cpp: LCAVMap::Apply"]}
{"id": "C310", "title": "The process with couplers acts with the potentials of the current component", "statement": "After any sequence of new bunches, components and steps, the process is active in components with coupler potentials only, and acts there once, at the centre or the exit, with the potentials, length and field of this component; the second pointer to the potentials is never read before it is set, and the fields of all structures kick.", "quantifier": "all sequences of bunches, components and steps", "why_tests_cant": "Two pointers in base and derived class have to agree after every sequence; only one of them is reset for a new bunch.", "anchors": ["Merlin++/CouplerWakeFieldProcess.cpp: SetCurrentComponent", "Merlin++/CouplerWakeFieldProcess.h: currentWake", "Merlin++/WakeFieldProcess.cpp: InitialiseProcess, DoProcess"]}
{"id": "C311", "title": "Entering a component leaves the bunch alone", "statement": "Entering a component changes no particle and not the charge; no particle is lost before the wake acts.", "quantifier": "all states, bunches and components", "why_tests_cant": "Particles are only lost for new potentials or after bends.", "anchors": ["Merlin++/CouplerWakeFieldProcess.cpp: SetCurrentComponent (74-79)", "Merlin++/WakeFieldProcess.cpp: Init, CalculateQdist"]}
{"id": "C312", "title": "Only one wake process acts in a component", "statement": "Of the plain wake process and the one with couplers at most one acts in a component, the one its potentials expect.", "quantifier": "all components and expected processes", "why_tests_cant": "The decision is taken in two classes, one of which does not ask what is expected.", "anchors": ["Merlin++/CouplerWakeFieldProcess.cpp: SetCurrentComponent (59)", "Merlin++/WakeFieldProcess.cpp: SetCurrentComponent (163-168)", "Merlin++/WakePotentials.h: GetExpectedProcess"]}
{"id": "C313", "title": "Cut offs of normally distributed particles", "statement": "Every coordinate of a particle of the normal generator is the first normal number not yet used whose distance from zero is at most the absolute value of the cut off of that coordinate, or simply the next number where the cut off is zero; coordinates are made in the order x, x', y, y', momentum, delay.", "quantifier": "for all cut offs of either sign and all sequences of random numbers", "why_tests_cant": "A test sees a finite number of particles of one seed and cannot tell a truncated normal law from a clipped or reordered one.", "anchors": ["Merlin++/ParticleDistributionGenerator.cpp: NormalParticleDistributionGenerator::GenerateFromDistribution", "Merlin++/ParticleDistributionGenerator.h: RandomGauss", "Merlin++/RandomNG.cpp: normal"]}
{"id": "C314", "title": "Amplitudes of halos and rings", "statement": "A particle of a ring or halo, made into a bunch for an uncoupled beam, has exactly the Courant-Snyder invariant emittance times size squared, after the centre of the beam and the part of the dispersion are taken off; the other plane is empty for halos of the first kind and normal within its cut offs for those of the second.", "quantifier": "for all uncoupled beams with positive beta functions, all sizes, cut offs and random numbers", "why_tests_cant": "The amplitude is a function of ten beam parameters and continuous random phases; a test shows a few combinations.", "anchors": ["Merlin++/HaloParticleDistributionGenerator.cpp", "Merlin++/ParticleDistributionGenerator.cpp: RingParticleDistributionGenerator", "Merlin++/ParticleBunch.cpp: ParticleBunch"]}
{"id": "C315", "title": "Halos and rings are matched", "statement": "Turning the normalised coordinates of a halo or ring by any phase advance does not change its distribution: the mean of every function of them stays the same, in both planes at once for rings.", "quantifier": "for all functions of the coordinates, all phase advances and sizes", "why_tests_cant": "Equality of distributions speaks of all functions of the coordinates and of the whole law of the random phase.", "anchors": ["Merlin++/HaloParticleDistributionGenerator.cpp", "Merlin++/ParticleDistributionGenerator.cpp"]}
{"id": "C316", "title": "Emittance and momentum spread of generated halos", "statement": "A generated bunch has the emittances and the momentum spread of the beam data it is made from.", "quantifier": "for all beams and all generators", "why_tests_cant": "Second moments of the law differ from those of any sample; a sample cannot settle a factor of the law exactly.", "anchors": ["Merlin++/HaloParticleDistributionGenerator.cpp", "Merlin++/ParticleDistributionGenerator.cpp: UniformParticleDistributionGenerator", "Merlin++/ParticleBunch.cpp: ParticleBunch"]}
{"id": "C317", "title": "Halos for hollow electron lenses", "statement": "Particles of these halos lie on an ellipse in x and y of the given number of beam sizes (thin) or evenly between two of them (thick), at zero in x' and y'.", "quantifier": "for all uncoupled beams, radii and random numbers", "why_tests_cant": "The density between two radii and the slopes for every optics are statements about all random numbers and all beams.", "anchors": ["Merlin++/HollowElensParticleDistributionGenerator.cpp", "Merlin++/HollowElensParticleDistributionGenerator.h"]}
{"id": "C318", "title": "Elastic cross sections", "statement": "The elastic cross sections, with and without the Coulomb part, are the sums of the differential cross section at the invariant mass of the collision over the steps between the bounds, and nothing done later changes them.", "quantifier": "for all differential cross sections, bounds, steps, energies and later calls", "why_tests_cant": "The sums depend on an arbitrary function and on sequences of calls; a test fixes both.", "anchors": ["Merlin++/ElasticScatter.cpp: GenerateTDistribution, GenerateDsigDt, IntegrateDsigDt", "Merlin++/ElasticScatter.h: ppElasticScatter"]}
{"id": "C319", "title": "Choice of t in elastic scattering", "statement": "A random number of [0, 1) gives a momentum transfer within the bounds that rises with the number, and at every multiple of one over the number of points it is the quantile of the differential cross section, so that the chance of a value below a quantile is that of the quantile.", "quantifier": "for all positive differential cross sections, bounds, steps and random numbers", "why_tests_cant": "It speaks of the law of the chosen values for all cross sections, not of a sample.", "anchors": ["Merlin++/ElasticScatter.cpp: SelectT, IntegrateDsigDt", "Merlin++/Interpolation.cpp"]}
{"id": "C320", "title": "Elastic scattering follows the energy asked for", "statement": "After a call for a distribution at an energy and bounds the cross sections and the choice of t are those of this energy and these bounds.", "quantifier": "for all sequences of calls", "why_tests_cant": "A test with one energy per object never sees a second call.", "anchors": ["Merlin++/ElasticScatter.cpp: GenerateTDistribution"]}
{"id": "C321", "title": "The elastic cross section against the integral", "statement": "For a falling differential cross section the cross section is at most the integral over the steps, and smaller by at most one step times the drop of the differential cross section.", "quantifier": "for all falling differential cross sections and steps", "why_tests_cant": "An error bound of a numerical integral for all functions cannot be sampled.", "anchors": ["Merlin++/ElasticScatter.cpp: IntegrateDsigDt"]}
{"id": "C322", "title": "Single exchanges are Regge poles", "statement": "Real and imaginary parts of the exchanges of both pomerons and of the even trajectory are those of -X F(t) (-i alpha' nu)^alpha(t), that of the odd trajectory has one more factor i, and the form factor is one at zero, positive and falling.", "quantifier": "for all t and all positive nu", "why_tests_cant": "Sines and cosines of the signature have to fit for all real exponents; a sign error shows only as a slightly other cross section.", "anchors": ["Merlin++/ElasticScatter.cpp: F1, a0, hardpomre, hardpomim, pomre, pomim, plusre, plusim, minusre, minusim"]}
{"id": "C323", "title": "Double exchange is a convolution", "statement": "The amplitude of double exchange is i over 16 pi^2 nu times the convolution of the sum of the single exchanges with itself over the plane of transverse momenta, for protons as for antiprotons.", "quantifier": "for all momentum transfers and all nu above the scales of the trajectories", "why_tests_cant": "The closed form of 144 complex terms has to agree with an integral over a plane for all momenta.", "anchors": ["Merlin++/ElasticScatter.cpp: twopom, twopombar"]}
{"id": "C324", "title": "The elastic cross section is the square of the amplitude", "statement": "Without the Coulomb part the differential cross section is the square of the modulus of the nuclear amplitude times (hbar c)^2 over 16 pi, and so not negative; with it, it is the square of the sum of Coulomb and nuclear amplitudes, the Coulomb phase taken to first order.", "quantifier": "for all momentum transfers and energies with positive nu", "why_tests_cant": "It is an identity between real formulas with a ratio of real to imaginary part and a complex square for all arguments.", "anchors": ["Merlin++/ElasticScatter.cpp: PomeronScatter"]}
{"id": "C325", "title": "Three gluon exchange has no jump and no kink", "statement": "The amplitude of three gluon exchange has a derivative at every t, also where the formula changes, and the derivative is negative.", "quantifier": "for all real t", "why_tests_cant": "A derivative at the joint is a limit; a test compares values near to it.", "anchors": ["Merlin++/ElasticScatter.cpp: ggg"]}
{"id": "C326", "title": "Tables and cross section of single diffraction", "statement": "A generation keeps the square of the invariant mass, the cross section as the sum over the grid in barn, and tables for t and xi that rise from zero and hold the quantiles of the sums over the other variable, all for the energy asked for; nothing done later changes them.", "quantifier": "for all cross sections that are not negative on the grid and whose first row and column have less than the N-th part, all bounds, energies and later calls", "why_tests_cant": "Quantiles of an arbitrary cross section on 25 million points cannot be sampled.", "anchors": ["Merlin++/DiffractiveScatter.cpp: GenerateDistribution, GenerateDsigDtDxi"]}
{"id": "C327", "title": "Law of t and mass in single diffraction", "statement": "A try of the choice with three uniform random numbers gives pairs of t and recoil mass with a density proportional to the cross section, within the bounds, and a try that fails leaves the law of the next one as it was.", "quantifier": "for all cross sections below the ceiling of the tables, all rising tables, bounds and functions averaged", "why_tests_cant": "The density is a statement about all functions of the pair and integrals over three random numbers.", "anchors": ["Merlin++/DiffractiveScatter.cpp: Select"]}
{"id": "C328", "title": "Diffractive t stays within its bounds", "statement": "No chosen t is below the lower bound set by the user.", "quantifier": "for all cross sections", "why_tests_cant": "It depends on the share of the first of 5000 bins, which a test with one energy may never make large.", "anchors": ["Merlin++/DiffractiveScatter.cpp: GenerateDsigDtDxi, Select"]}
{"id": "C329", "title": "Acceptance in single diffraction does not depend on history", "statement": "The factor of the acceptance stays positive and never grows, and the same random numbers give the same pair at any time.", "quantifier": "for all cross sections, tables and sequences of random numbers", "why_tests_cant": "The factor is hidden, shared by all objects and changes with rare pairs.", "anchors": ["Merlin++/DiffractiveScatter.cpp: Select"]}
{"id": "C330", "title": "Choice of t or xi alone", "statement": "SelectT and SelectXi return a value of the generated distribution.", "quantifier": "for all objects", "why_tests_cant": "An uninitialised pointer may by chance not crash in a test.", "anchors": ["Merlin++/DiffractiveScatter.cpp: SelectT, SelectXi", "Merlin++/DiffractiveScatter.h: LinearInterpolation"]}
{"id": "C331", "title": "Diffractive cross section in xi", "statement": "The cross section is zero up to the threshold for one more pion, has no jump there or at the matching point, and is positive above the matching point.", "quantifier": "for all t and s", "why_tests_cant": "Continuity at a point that moves with s is a limit for all t and s.", "anchors": ["Merlin++/DiffractiveScatter.cpp: PomeronScatter"]}
{"id": "C332", "title": "Slope at the matching point", "statement": "At the matching point the background at low mass has the slope of the cross section at high mass.", "quantifier": "for all t and s", "why_tests_cant": "A factor missing in one of nine terms of a derivative changes values by little.", "anchors": ["Merlin++/DiffractiveScatter.cpp: PomeronScatter"]}
{"id": "C333", "title": "Diffractive cross section in t", "statement": "As a function of t the cross section at high mass has no jump.", "quantifier": "for all t, xi and s", "why_tests_cant": "A jump of less than a percent between two formulas is not seen in sampled distributions.", "anchors": ["Merlin++/DiffractiveScatter.cpp: PomeronScatter"]}
{"id": "C334", "title": "Settings of an output format", "statement": "After any chain of calls a format has the precision, width, adjustment, overflow rule and notation that were said last.", "quantifier": "for all chains of calls", "why_tests_cant": "Chains of calls are unbounded; a call without effect is seen only after certain others.", "anchors": ["Merlin++/OPFormat.h: OPFormat::scientific, fixed, general, precision, width, left, right, internal, overflow"]}
{"id": "C335", "title": "Formatted numbers can be read back", "statement": "A formatted integer reads back as itself and a number in fixed notation to half a unit of its last place, or the field is full of stars; texts have at least the width asked for, and exactly it if they must not spill over.", "quantifier": "for all formats, integers and finite numbers", "why_tests_cant": "Rounding and padding for all numbers and widths cannot be enumerated.", "anchors": ["Merlin++/OPFormat.cpp: operator(), to_string, truncate_str"]}
{"id": "C336", "title": "Formatted strings keep to their width", "statement": "A string that fits is kept and filled with blanks on one side; one that does not fit and must not spill over is cut to the width with two points at its end.", "quantifier": "for all formats and strings without zero characters", "why_tests_cant": "The cut fails only for widths below two.", "anchors": ["Merlin++/OPFormat.cpp: truncate_str, to_string"]}
{"id": "C337", "title": "Formats leave the stream as it was", "statement": "Output of formatted numbers and matrices does not change how a stream writes later values.", "quantifier": "for all streams, formats and later output", "why_tests_cant": "Later output of any kind and length would have to be compared.", "anchors": ["Merlin++/OPFormat.h: OPFormat", "Merlin++/OPFormat.cpp: operator <<", "Merlin++/MatrixPrinter.cpp: MatrixForm"]}
{"id": "C338", "title": "Printed matrices can be read back", "statement": "MatrixForm writes one line for each row and one word for each entry, with columns of one width, and in fixed notation each word reads back to half a unit of its last place.", "quantifier": "for all matrices, fixed formats that may spill over and streams", "why_tests_cant": "The width depends on all entries; words may run together only for particular lengths.", "anchors": ["Merlin++/MatrixPrinter.cpp: MatrixForm"]}
{"id": "C339", "title": "Quantiles of the Landau distribution", "statement": "With a uniform random number the probability of a Landau value up to entry k of the table is k/1000, to one part in ten billion.", "quantifier": "for all k from 8 to 980 and all random numbers", "why_tests_cant": "A test of frequencies cannot resolve 10^-10, nor visit all cells of the table.", "anchors": ["Merlin++/LandauDistribution.h: landau_distribution::operator(), F", "Merlin++/RandomNG.cpp: RandomNG::landau"]}
{"id": "C340", "title": "Order and joints of the Landau quantile function", "statement": "In the range of the table larger random numbers give larger values without jumps; above it values grow, about as the inverse of what is left to one; where the table ends the value changes by less than 4 parts in 10^5.", "quantifier": "for all random numbers from 0.007 on", "why_tests_cant": "Order and continuity concern all pairs of real numbers.", "anchors": ["Merlin++/LandauDistribution.h: landau_distribution::operator()"]}
{"id": "C341", "title": "Landau values grow with the random number", "statement": "Larger random numbers give larger values over the whole range, so that small ones give the lowest energy losses.", "quantifier": "for all random numbers of (0, 1)", "why_tests_cant": "The pole lies at random numbers near 10^-15.", "anchors": ["Merlin++/LandauDistribution.h: landau_distribution::operator()"]}
{"id": "C342", "title": "Formula for the far tail of the Landau distribution", "statement": "Random numbers above 0.999 use the formula made for them.", "quantifier": "for all random numbers above 0.999", "why_tests_cant": "The two formulas differ by less than a thousandth.", "anchors": ["Merlin++/LandauDistribution.h: landau_distribution::operator()"]}
{"id": "C343", "title": "Wake tables are read as written", "statement": "A three-dimensional array written as nested lists in braces, with commas and any filling before the braces, is read element by element as it stands.", "quantifier": "for all sizes, all numbers, all fillings without an opening brace", "why_tests_cant": "Tests read the few files that exist; the claim covers all arrays.", "anchors": ["Merlin++/CollimatorTable.h: collimatortable::collimatortable"]}
{"id": "C344", "title": "A broken wake table is reported", "statement": "A file in which braces are missing is refused with a message.", "quantifier": "for all files without closing braces", "why_tests_cant": "A program that never ends is no test result.", "anchors": ["Merlin++/CollimatorTable.h: collimatortable::collimatortable"]}
{"id": "C345", "title": "Interpolation in wake tables", "statement": "With three or more points the interpolation gives the entries at the points and reproduces parabolas between them; from half a step beyond the last point on it gives zero.", "quantifier": "for all tables, steps, distances", "why_tests_cant": "Exactness for all parabolas and all distances is no finite check.", "anchors": ["Merlin++/CollimatorTable.h: collimatortable::interpolate, parabolic"]}
{"id": "C346", "title": "Wake tables as functions of distance", "statement": "The interpolation takes into account where the table begins, works for any number of points and has no jumps.", "quantifier": "for all tables and distances", "why_tests_cant": "Jumps are between the points that tests take, and existing files begin at zero.", "anchors": ["Merlin++/CollimatorTable.h: collimatortable::interpolate"]}
{"id": "C347", "title": "Wake tables with one parameter, equal axes", "statement": "If both parameter axes have the same points, a table that is a parabola in xi or in Gamma is reproduced, for all values within the table.", "quantifier": "for all tables, axes and parameters", "why_tests_cant": "Covers all parabolas, sizes and parameters.", "anchors": ["Merlin++/CollimatorTable.h: collimatortable::collimatortable"]}
{"id": "C348", "title": "Wake tables with one parameter, different axes", "statement": "The parameter is looked up on its own axis, with the step and number of points of that axis.", "quantifier": "for all axes", "why_tests_cant": "With equal axes, as in the files at hand, the exchange of axes cannot be seen.", "anchors": ["Merlin++/CollimatorTable.h: collimatortable::collimatortable"]}
{"id": "C349", "title": "Wake tables with both parameters", "statement": "With both parameters the interpolation is the parabola in each through the nine points around, and zero beyond the table.", "quantifier": "for all tables and parameters", "why_tests_cant": "Polynomial identity in two variables and nine values.", "anchors": ["Merlin++/CollimatorTable.h: collimatortable::collimatortable"]}
{"id": "C350", "title": "Potentials of the tapered collimator", "statement": "Behind the particle the longitudinal potential is the derivative of the transverse one, which is positive and below its value at zero; before it both vanish; mode zero has no transverse potential.", "quantifier": "for all half gaps, modes, distances", "why_tests_cant": "Derivatives and signs for all real arguments.", "anchors": ["Merlin++/TaperedCollimatorPotentials.h: TaperedCollimatorPotentials::Wlong, Wtrans"]}
{"id": "C351", "title": "Signs and scaling of the resistive potentials", "statement": "Both potentials vanish before the particle; behind it the transverse one is positive and falls as the inverse root of the distance, the longitudinal one is negative; both are proportional to the length.", "quantifier": "for all radii, conductivities, lengths, modes up to the number given, distances", "why_tests_cant": "All real arguments.", "anchors": ["Merlin++/ResistiveWakePotentials.h: ResistiveWakePotentials::Wtrans, Wlong"]}
{"id": "C352", "title": "Resistive potentials: relation and modes", "statement": "The longitudinal potential is the derivative of the transverse one (Panofsky and Wenzel), and the potential of a mode does not depend on how many others are computed.", "quantifier": "for all distances and numbers of modes", "why_tests_cant": "A relation between derivatives and one between differently constructed objects.", "anchors": ["Merlin++/ResistiveWakePotentials.h: ResistiveWakePotentials::ResistiveWakePotentials, Wlong"]}
{"id": "C353", "title": "Resistive potentials from tables", "statement": "Within the range of its table a potential is that of the table, scaled, and the asymptotic one beyond; this holds for all modes, transverse and longitudinal.", "quantifier": "for all tables, modes, distances", "why_tests_cant": "All tables and distances; the longitudinal tables are read without effect.", "anchors": ["Merlin++/ResistiveWakePotentials.h: ResistivePotential::Wtrans, Wlong"]}
{"id": "C354", "title": "The Gamma function of the library", "statement": "For every positive argument the function Gamma has a positive value; at the integers from 1 to 20 it is the factorial to one part in ten million.", "quantifier": "for all positive arguments; accuracy for the integers named", "why_tests_cant": "That the logarithm of the sum is defined concerns all positive reals.", "anchors": ["Merlin++/Gamma.cpp: LogGamma", "Merlin++/utils.h: Gamma"]}
{"id": "C355", "title": "Gamma for negative arguments", "statement": "Gamma has its value for negative arguments between integers.", "quantifier": "for all such arguments", "why_tests_cant": "Callers use positive arguments; a test has to look for the others.", "anchors": ["Merlin++/Gamma.cpp: LogGamma"]}
{"id": "C356", "title": "Moments of multiple scattering", "statement": "Displacement and angle behind a block have second moments of one third, one half and one times the square of the angle with the powers of the length; for an angle that grows with the root of the length, blocks can be divided without changing them.", "quantifier": "for all lengths, angles, uncorrelated random variables of variance one", "why_tests_cant": "Moments are expectations; tests only estimate them.", "anchors": ["Merlin++/ScatterParticle.cpp: CoulombScatter", "Merlin++/CoulombScatter.h: CoulombScatter"]}
{"id": "C357", "title": "Multiple scattering in divided blocks", "statement": "Two half blocks scatter as much as the whole.", "quantifier": "for all blocks and energies", "why_tests_cant": "Differences of per cent in rms angles need very many particles.", "anchors": ["Merlin++/ScatterParticle.cpp: ScatterParticle"]}
{"id": "C358", "title": "Energy loss in a block", "statement": "A particle behind a block keeps at least one ten millionth of its energy; in blocks of up to log 2 radiation lengths it never gains any (8 log 2 with the exact function Gamma).", "quantifier": "for all blocks, particles and random numbers", "why_tests_cant": "All random numbers and lengths; the bounds depend on properties of the function Gamma.", "anchors": ["Merlin++/ScatterParticle.cpp: ScatterParticle"]}
{"id": "C359", "title": "Energy loss in blocks of any length", "statement": "A block never increases the energy, and a block of no length leaves the particle alone.", "quantifier": "for all lengths and random numbers", "why_tests_cant": "Thin blocks behave well; the failure is in a range of random numbers for thick ones.", "anchors": ["Merlin++/ScatterParticle.cpp: ScatterParticle"]}
{"id": "C360", "title": "A frame modifier takes the place of its frame", "statement": "Wrapping a sub-frame of a sequence in a frame modifier replaces it by the modifier in the sequence, at the same place, with the same geometry, and changes no other frame; removing the modifier restores every frame.", "quantifier": "for all hierarchies, sequences with distinct sub-frames and sub-frames of them", "why_tests_cant": "All hierarchies, and the claim that all other frames stay as they were.", "anchors": ["Merlin++/FrameModifier.cpp: FrameModifier, Remove", "Merlin++/SequenceFrame.cpp: ReplaceSubFrame"]}
{"id": "C361", "title": "Positions of wrapped frames", "statement": "A wrapped frame keeps its position in the sequence, after consolidation, after removal of the modifier and with a second modifier; modifiers can be removed wherever they are.", "quantifier": "for all hierarchies and orders of the operations", "why_tests_cant": "The failures depend on the order of wrapping, consolidation and removal.", "anchors": ["Merlin++/FrameModifier.cpp: ConsolidateConstruction, Remove", "Merlin++/LatticeFrame.h: ReplaceSubFrame", "Merlin++/LatticeFrame.cpp: GetPosition"]}
{"id": "C362", "title": "Copies of frames have the same contents", "statement": "The copy of a hierarchy without movers has the same components and patches in the same order with their own local transformations; without modifiers all local transformations and the positions of sub-frames are kept too.", "quantifier": "for all hierarchies", "why_tests_cant": "Hierarchies of any depth.", "anchors": ["Merlin++/SequenceFrame.cpp: SequenceFrame, CopySubFrames", "Merlin++/ComponentFrame.h: ComponentFrame", "Merlin++/PatchFrame.h: PatchFrame", "Merlin++/FrameModifier.cpp: Copy"]}
{"id": "C363", "title": "Copies of frames have the same geometry", "statement": "A copied frame has the length of the original, keeps the transformations of its modifiers, and every hierarchy can be copied.", "quantifier": "for all hierarchies", "why_tests_cant": "No test copies frames; some failures use memory that was never set and may go unnoticed.", "anchors": ["Merlin++/SequenceFrame.cpp: SequenceGeometry", "Merlin++/LatticeFrame.h: LatticeFrame, GetGeometryLength", "Merlin++/MagnetMover.cpp: Copy", "Merlin++/FrameModifier.cpp: Copy"]}
{"id": "C364", "title": "Settings of a magnet mover can be read back", "statement": "After any sequence of settings the displacements read from a magnet mover are those last set, or zero if none was or since a reset; the roll is the one last set up to whole turns, and exactly that one between -pi and pi.", "quantifier": "for all sequences of operations and all values", "why_tests_cant": "All sequences of operations; the roll passes through sine, cosine and arc tangent.", "anchors": ["Merlin++/MagnetMover.h: GetX, GetY, GetRoll, SetX, SetY, SetRoll, Reset", "Merlin++/Transform2D.h: setRotation, rotation"]}
{"id": "C365", "title": "A magnet mover moves its frame by what was set", "statement": "Seen from the moved frame every point has its coordinates in axes displaced by the x and y set and then rolled by the angle set, after the transformations applied to the frame itself; the origin goes to (x, y, 0) whatever the roll and the order of settings.", "quantifier": "for all sequences of operations and all points", "why_tests_cant": "All points, angles and sequences of operations; order of composition.", "anchors": ["Merlin++/MagnetMover.cpp: GetLocalFrameTransform", "Merlin++/LatticeFrame.cpp: ApplyLocalFrameTransform"]}
{"id": "C366", "title": "A moved frame answers for its mover", "statement": "IsTransformed is true for a frame that has been moved, and GetLocalFrameTransform returns the transformation given to SetLocalFrameTransform.", "quantifier": "for all movers and transformations", "why_tests_cant": "Each function is right for frames without movers; only the combination shows the failure.", "anchors": ["Merlin++/Transformable.h: IsTransformed", "Merlin++/LatticeFrame.cpp: SetLocalFrameTransform", "Merlin++/MagnetMover.cpp: GetLocalFrameTransform"]}
{"id": "C367", "title": "StableOrbits lists the particles that stay", "statement": "If at least one particle of the bunch stays inside of all apertures for all turns, SelectStable puts into the list, in increasing order, exactly the numbers of the particles that do.", "quantifier": "for all rings, bunches, numbers of turns and earlier contents of the list", "why_tests_cant": "The list is kept in step with the bunch over all losses in all turns; tests can only follow some patterns of losses.", "anchors": ["Merlin++/StableOrbits.cpp: SelectStable", "Merlin++/CollimateParticleProcess.cpp: DoCollimation, InitialiseProcess"]}
{"id": "C368", "title": "The list of stable orbits can be used", "statement": "After SelectStable the caller can read the list; it is empty if no particle is stable, and complete for no turns at all.", "quantifier": "for all rings, bunches and numbers of turns", "why_tests_cant": "Memory that has been deleted may still hold the right values.", "anchors": ["Merlin++/StableOrbits.cpp: SelectStable", "Merlin++/CollimateParticleProcess.cpp: ~CollimateParticleProcess, IndexParticles"]}
{"id": "C369", "title": "The profile sums the time spent in a process", "statement": "For a process that is added and then started and stopped in turn, the time recorded is the sum of its intervals to the nanosecond, whatever is done with other processes in between, and the nanoseconds never hold a full second.", "quantifier": "for all sequences of calls for any processes and all readings of the clock", "why_tests_cant": "Times come from the clock; carries between nanoseconds and seconds depend on when the calls happen.", "anchors": ["Merlin++/MerlinProfile.h: AddProcess, StartProcessTimer, EndProcessTimer, SetProcessDuration"]}
{"id": "C370", "title": "Clearing and stopping timers", "statement": "ClearTime clears the recorded times; stopping a timer that is not running does not change its time.", "quantifier": "for all processes and calls", "why_tests_cant": "Needs a build with profiling and several processes.", "anchors": ["Merlin++/MerlinProfile.h: ClearTime, EndProcessTimer"]}
{"id": "C371", "title": "Copies of map components are independent", "statement": "Rotating one ParticleMapComponent changes what that component does and nothing else; a copy made by Copy() starts with the map of its original and then lives on its own.", "quantifier": "for every sequence of constructions, copies and rotations", "why_tests_cant": "All sequences of operations on all components; sharing shows only when a copy and its original are both looked at after a later rotation.", "anchors": ["Merlin++/ParticleMapComponent.cpp: ParticleMapComponent::Copy, RotateY180", "Merlin++/ParticleMap.h: ParticleMap::Invert"]}
{"id": "C372", "title": "Tracking through a map component applies its map", "statement": "Tracking through a ParticleMapComponent applies its map to every particle once; a component rotated about its y axis acts as the same piece of the machine passed from the other side.", "quantifier": "for all maps, bunches and steps", "why_tests_cant": "All maps and bunches; the action after a rotation depends on the map.", "anchors": ["Merlin++/ParticleMapPI.cpp: ParticleMapCI::TrackStep", "Merlin++/LinearParticleMap.cpp: LinearParticleMap::Apply, Invert", "Merlin++/ParticleMapComponent.cpp: ParticleMapComponent::RotateY180"]}
{"id": "C373", "title": "Eigenvalues and eigenvectors give back the tridiagonal matrix", "statement": "When tqli returns for a symmetric tridiagonal matrix T of n rows and a matrix M = Z, the eigenvalues D and the new Z' recombine to the same matrix: every element of Z' D Z'^T is that of Z T Z^T up to 32 n 10^-12 times the root of the sum of squares of T (and the lengths of the rows). The products of the rows of Z are kept, so orthogonal vectors remain orthogonal, and the eigenvalues sum to the trace. A matrix of two rows is treated exactly unless its off-diagonal element is below the threshold.", "quantifier": "for every n, every tridiagonal matrix and every M", "why_tests_cant": "All matrices of all sizes; the number of sweeps, where the matrix splits and which elements are dropped depend on the values.", "anchors": ["Merlin++/LinearAlgebra.cpp: tqli, pythag, EigenSystemSymmetricMatrix"]}
{"id": "C374", "title": "tqli never divides by zero", "statement": "For every matrix tqli returns or throws (too many sweeps, or no rows); no division by zero is met in the shift or in a rotation. The same holds for tred2 and EigenSystemSymmetricMatrix.", "quantifier": "for every n and every tridiagonal matrix", "why_tests_cant": "All matrices; the divisors depend on all the sweeps made before.", "anchors": ["Merlin++/LinearAlgebra.cpp: tqli, pythag, tred2, EigenSystemSymmetricMatrix"]}
{"id": "C375", "title": "EigenSystemSymmetricMatrix diagonalises a symmetric matrix", "statement": "tred2 leaves a tridiagonal matrix T and an orthogonal matrix Q with Q T Q^T equal to the symmetric matrix given by the lower triangle; when EigenSystemSymmetricMatrix returns, its vectors are orthonormal and, with its eigenvalues, recombine to that matrix, every element up to 64 n 10^-12 of the root of the sum of its squares.", "quantifier": "for every n and every symmetric matrix", "why_tests_cant": "All matrices of all sizes; which reflections are skipped and how many sweeps are made depends on the values.", "anchors": ["Merlin++/LinearAlgebra.cpp: tred2, tqli, EigenSystemSymmetricMatrix"]}
{"id": "C376", "title": "PYTHAG is the length of the hypotenuse", "statement": "PYTHAG(a, b) is the square root of the sum of the squares of its arguments, also when both are small, and does not depend on their order.", "quantifier": "for all pairs of numbers", "why_tests_cant": "All pairs of numbers; the failing ones are below the machine epsilon with the smaller argument first.", "anchors": ["Merlin++/TLASimp.h: PYTHAG", "Merlin++/utils.h: fequal"]}
{"id": "C377", "title": "SVD keeps the matrix when it removes an element beside a vanishing singular value", "statement": "When a diagonal element of the bidiagonal matrix vanishes, SVD removes the element right of it by rotations; the product of the left vectors and the bidiagonal matrix is the same after as before.", "quantifier": "for every bidiagonal matrix with a vanishing element on the diagonal, at every position", "why_tests_cant": "All bidiagonal matrices; the error only shows for singular matrices with two or more elements still to be treated after the vanishing one.", "anchors": ["Merlin++/TLASimp.h: SVD, PYTHAG"]}
{"id": "C378", "title": "The search and the rotations of SVD are always defined and keep vectors orthonormal", "statement": "With work[0] zero the search for the block to be treated never reads before the first singular value, and finds the last place at which an element of work or the singular value before it is small; the rotations which remove an element never divide by zero, and keep the products of all pairs of rows of the left vectors.", "quantifier": "for every bidiagonal matrix, every block and every matrix of left vectors", "why_tests_cant": "All values of the bidiagonal matrix, and all numbers of rotations.", "anchors": ["Merlin++/TLASimp.h: SVD"]}
{"id": "C379", "title": "A sweep of SVD keeps the matrix", "statement": "A sweep of rotations over a block of the bidiagonal matrix leaves every element of the product of left vectors, bidiagonal matrix and right vectors as it was, as long as no singular value of the block but the last has become small; it always keeps the left and the right vectors orthonormal, and its shift never divides by zero in a block without small elements.", "quantifier": "for every bidiagonal matrix, every block of at least two columns, all matrices of vectors", "why_tests_cant": "All blocks of all sizes and all values; an error in one rotation only changes singular values slightly and is hidden by later sweeps.", "anchors": ["Merlin++/TLASimp.h: SVD, PYTHAG, SIGN"]}
{"id": "C380", "title": "Each file of impacts holds the impacts of its collimator", "statement": "OutputJawImpact and OutputScatterPlot write, for every collimator named by the user, one file with the heading and all records of this collimator made since the last output, in order; other files are not touched, and no record is written a second time by a later output.", "quantifier": "for all sequences of records, all sets of names, all directories and seeds", "why_tests_cant": "All interleavings of records of named and unnamed collimators; names are chosen by the user.", "anchors": ["Merlin++/ScatteringModel.cpp: ScatterPlot, JawImpact, SetScatterPlot, SetJawImpact, OutputScatterPlot, OutputJawImpact"]}
{"id": "C381", "title": "Impacts on collimators named by the user are recorded in tracking", "statement": "After SetJawImpact or SetScatterPlot for a collimator, every particle scattered in it is recorded and appears in the file written by OutputJawImpact or OutputScatterPlot.", "quantifier": "for all sequences of calls of the setters and of scattered particles", "why_tests_cant": "A test of the output functions passes, since they write what is recorded; that no sequence of calls in tracking records anything is a statement about all runs.", "anchors": ["Merlin++/CollimateProtonProcess.cpp: DoScatter", "Merlin++/ScatteringModel.cpp: SetScatterPlot, SetJawImpact"]}
{"id": "C382", "title": "ScatterPlotData compare by their position", "statement": "operator< and operator> of ScatterPlotData order records by z and can be used for sorting: no record is before itself, and of two records at most one is before the other.", "quantifier": "for all pairs of records", "why_tests_cant": "All pairs of positions, equal ones included.", "anchors": ["Merlin++/ScatteringModel.h: ScatterPlotData"]}
{"id": "C383", "title": "Files of impacts name their columns", "statement": "The heading of the files written by OutputJawImpact and OutputScatterPlot has one name for each column of the lines.", "quantifier": "for all records", "why_tests_cant": "Holds for every record or for none; a test of single lines does not relate them to the heading.", "anchors": ["Merlin++/ScatteringModel.cpp: OutputScatterPlot, OutputJawImpact"]}
{"id": "C384", "title": "SVD gives no negative singular values and orthonormal vectors", "statement": "When SVD returns, no singular value is negative, and the rotations have kept left and right vectors orthonormal; a matrix which is diagonal after the first part is decomposed at once, with the absolute values as singular values and the product unchanged; no element before the first singular value is read.", "quantifier": "for every bidiagonal matrix and all matrices of vectors, whichever blocks are found and however many sweeps are made", "why_tests_cant": "All matrices of all sizes; which of the rotations are made depends on the values, and up to thirty tries are made for each singular value.", "anchors": ["Merlin++/TLASimp.h: SVD"]}
{"id": "C385", "title": "The first part of SVD decomposes the matrix exactly", "statement": "After the first part of SVD the product of the left vectors, the bidiagonal matrix of V and work, and the transposed right vectors is the matrix given, in every element; no divisor of a reflection which is made is zero.", "quantifier": "for every square matrix of any size of which every column and row, when its turn comes, is beyond the tolerance or zero, and whatever the matrix of right vectors held before", "why_tests_cant": "All matrices of all sizes; each reflection works in place on what the earlier ones left, and the vectors are made from the stored remains in two further loops.", "anchors": ["Merlin++/TLASimp.h: SVD"]}
{"id": "C386", "title": "The vectors of SVD are orthonormal for every square matrix", "statement": "Whenever SVD of a square matrix returns, the left vectors are orthonormal, the right vectors are orthonormal and no singular value is negative, also if columns or rows fall below the tolerance.", "quantifier": "for every square matrix of any size for which SVD returns", "why_tests_cant": "All matrices of all sizes, with every combination of columns and rows that vanish or fall below the tolerance, and any number of sweeps.", "anchors": ["Merlin++/TLASimp.h: SVD"]}
{"id": "C387", "title": "SVD of a matrix with orthogonal columns gives their lengths", "statement": "SVD of a square matrix whose columns are orthogonal and longer than the tolerance returns without a failure; the singular values are the lengths of the columns in their order, and the product of the left vectors, the singular values and the transposed right vectors is the matrix.", "quantifier": "for every square matrix of any size with orthogonal columns longer than the machine epsilon, and whatever the matrix of right vectors held before", "why_tests_cant": "All such matrices of all sizes, through every loop of the routine.", "anchors": ["Merlin++/TLASimp.h: SVD"]}
{"id": "C388", "title": "SVD and SVDsolve together solve a system of equations", "statement": "If SVD of a square matrix returns factors whose product is the matrix, SVDsolve with these factors gives a vector which minimises the sum of squares of the residuals, and the exact solution if no singular value is zero; for matrices with orthogonal columns longer than the tolerance both routines together always give the exact solution.", "quantifier": "for every square matrix of any size and every right-hand side", "why_tests_cant": "All matrices of all sizes, all right-hand sides, and minimality over all vectors.", "anchors": ["Merlin++/TLASimp.h: SVD, SVDsolve"]}
{"id": "C389", "title": "Elements, rows and columns of a matrix are the same data", "statement": "What is written to an element of a Matrix is read there afterwards and no other element changes; a subscript out of range throws; the identity has ones on its diagonal only; rows, columns and ranged rows give the elements of the matrix; a copy of another matrix has all its elements.", "quantifier": "for all matrices of all sizes, all subscripts and all ranges with ordered ends", "why_tests_cant": "All sizes and all pairs of subscripts: no two elements may share a place in the array.", "anchors": ["Merlin++/TMatrixLib.h: Matrix::operator(), Matrix::row, Matrix::column, Matrix::copy, IdentityMatrix"]}
{"id": "C390", "title": "Ranges with exchanged ends are refused and a matrix can be copied to itself", "statement": "A range whose first subscript is beyond the second is refused, and copying a matrix to itself leaves it as it is.", "quantifier": "for all matrices and ranges", "why_tests_cant": "The wrapped length and the self-copy only show in unusual calls.", "anchors": ["Merlin++/TMatrixLib.h: in_range, length, Matrix::copy, Matrix::redim"]}
{"id": "C391", "title": "Matrices whose sizes fit can be multiplied", "statement": "The product of an n x k and a k x m matrix is the n x m matrix of the sums of products; the product of a matrix and a vector of fitting length likewise.", "quantifier": "for all sizes and elements", "why_tests_cant": "Tests use square matrices; all sizes must be accepted and give the right sums.", "anchors": ["Merlin++/TMatrixLib.h: operator*, equal_dimension, swap"]}
{"id": "C392", "title": "tgemm and tgemv give alpha A B + beta C for every transposition", "statement": "tgemm sets C to alpha times the product of A and B, each transposed or not, plus beta times C; tgemv sets y to alpha times the product of A, transposed or not, and x, plus beta times y.", "quantifier": "for all factors, all fitting sizes and all transpositions", "why_tests_cant": "All sizes, factors and four transpositions; errors show for matrices that are not square and for factors near zero or one.", "anchors": ["Merlin++/tblas.h: tgemm, tgemv"]}
{"id": "C393", "title": "Products of vectors of unequal lengths are refused", "statement": "The product of two vectors is the sum of the products of their elements, and vectors of unequal lengths are refused in either order.", "quantifier": "for all pairs of vectors", "why_tests_cant": "All lengths and both orders.", "anchors": ["Merlin++/TMatrixLib.h: operator*", "Merlin++/tblas.h: tdot"]}
{"id": "C394", "title": "Every matrix can be written to a stream row by row", "statement": "operator<< writes a matrix row by row, one line for each row.", "quantifier": "for all matrices of all sizes", "why_tests_cant": "Tests write square matrices only.", "anchors": ["Merlin++/TMatrixLib.h: operator<<"]}
{"id": "C395", "title": "Operations on a part of a matrix change just that part", "statement": "+=, -=, /= and *= of a SubMatrix and a matrix of the same size combine each element of the part with the element in the same place and leave every other element of the matrix; a matrix of another size is refused.", "quantifier": "for all matrices, all parts and all sizes", "why_tests_cant": "All sizes and positions of the part, and the frame outside it.", "anchors": ["Merlin++/TMatrixLib.h: SubMatrix::operator+=, SubMatrix::operator*="]}
{"id": "C396", "title": "tgemr rotates a matrix", "statement": "tgemr sets C to R M R', also if C is M.", "quantifier": "for all square matrices", "why_tests_cant": "All sizes and elements, and whether the result shares its storage with the argument.", "anchors": ["Merlin++/tblas.h: tgemr"]}
{"id": "C397", "title": "Vectors and numbers are added, subtracted and multiplied element by element", "statement": "s + v, s - v, v - s and s * v of a Vector and a number have the sum, the differences and the product of each element and the number as elements.", "quantifier": "for all vectors and numbers", "why_tests_cant": "All vectors and numbers; the wrong operation is right for zero.", "anchors": ["Merlin++/TMatrixLib.h: operator+, operator-, operator*"]}
{"id": "C398", "title": "Sums and the greatest element of a row or column", "statement": "sumsquared and sumfabs of a SubVector are the sums of squares and of absolute values of its elements, and locmaxabs is the first place of an element of greatest absolute value.", "quantifier": "for all slices with elements, any start and stride", "why_tests_cant": "All slices; which of several equal elements is found matters for pivoting.", "anchors": ["Merlin++/TMatrixLib.h: SubVector::sumsquared, SubVector::sumfabs, SubVector::locmaxabs"]}
{"id": "C399", "title": "A covariance matrix stored as a triangle is symmetric, complete and without overlaps", "statement": "What is written to element (i,j) of an MVCMatrix is read from (i,j) and (j,i) and from no other element, the means are not changed, variance(n) is element (n,n), the N(N+1)/2 stored numbers are just the pairs, and two objects compare equal just if all means and elements are equal.", "quantifier": "for all N, all contents and all pairs of indices below N", "why_tests_cant": "The number of variables is a template parameter, and an overlap could occur for one pair of pairs only.", "anchors": ["Merlin++/MVCMatrix.h: ComputeIndex, MVCMatrix::operator(), MVCMatrix::variance, MVCMatrix::operator=="]}
{"id": "C400", "title": "The correlation coefficient is the covariance over the standard deviations", "statement": "r(n,m) of an MVCMatrix for two variables with positive variances is their covariance divided by the product of their standard deviations, the same in both orders.", "quantifier": "for all N, all n and m below N, all contents with positive variances", "why_tests_cant": "All real contents and all pairs.", "anchors": ["Merlin++/MVCMatrix.h: MVCMatrix::r, MVCMatrix::std"]}
{"id": "C401", "title": "A rotation of the axes in a MAD table turns by its angle", "statement": "A row of type SROT read by MADInterface adds one rotation of the axes about the beam with the name of the row and by the ANGLE of the row, and changes neither place nor momentum.", "quantifier": "for all rows of type SROT, all states of the interface with a model under construction", "why_tests_cant": "All angles and lengths; a file without rotations, or with length equal to angle, does not tell.", "anchors": ["Merlin++/MADInterface.cpp: MADInterface::ConstructModel", "Merlin++/ConstructSrot.cpp: ConstructSrot"]}
{"id": "C402", "title": "Particles are equal just if their coordinates are equal", "statement": "operator== of PSvector is true just if each of the six coordinates of one is equal, as a double, to that of the other; operator!= is the opposite; the identity of the particle does not matter.", "quantifier": "for all contents of both vectors, including zeros with a sign and values which are no numbers", "why_tests_cant": "All bit patterns of twelve doubles.", "anchors": ["Merlin++/PSvector.h: PSvector::operator==, PSvector::operator!="]}
{"id": "C403", "title": "A transformation of the plane written to a stream can be read back", "statement": "Reading with operator>> what operator<< wrote gives the same Transform2D.", "quantifier": "for all transformations", "why_tests_cant": "All numbers; whether two numbers run together depends on their signs and points.", "anchors": ["Merlin++/Transform2D.h: operator<<, operator>>"]}
{"id": "C404", "title": "A system solved with weights is solved in the sense of weighted least squares", "statement": "The vector returned by SVDMatrix with weights minimises the sum of squares of weight times residual of each equation, and solves a system which has a solution exactly, independently of the weights.", "quantifier": "for all square matrices, weights, right sides and competing vectors", "why_tests_cant": "Optimality compares with infinitely many vectors; weights that are forgotten on one side are not seen if all are one.", "anchors": ["Merlin++/TLASimp.h: SVDMatrix::SVDMatrix, SVDMatrix::Init, SVDMatrix::operator()"]}
