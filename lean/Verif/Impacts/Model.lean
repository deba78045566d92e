import Mathlib.Order.Defs.LinearOrder

/-!
# Records of impacts on collimators (Merlin++/ScatteringModel.cpp, ScatteringModel.h, CollimateProtonProcess.cpp)

A `ScatteringModel` stores impacts and positions for collimators named by the user, and writes them to one file for each
name.  Files are modelled as lists of lines, a line as the list of its entries; widths and digits are left out, and files can
always be opened.  Memory is not modelled.
-/

namespace Verif.Impacts

variable {K : Type}

/-- What is recorded of a particle (PSvector.h). -/
structure Particle (K : Type) where
  id : Int
  x : K
  xp : K
  y : K
  yp : K
  ct : K
  dp : K

/-- `ScatterPlotData` (ScatteringModel.h 37-46). -/
structure Plot (K : Type) where
  turn : Int
  ID : Int
  x : K
  xp : K
  y : K
  yp : K
  z : K
  name : String

/-- `operator==` (ScatteringModel.h 48-58). -/
def Plot.eq [LinearOrder K] (a b : Plot K) : Bool := if a.z ≠ b.z then false else true

/-- `operator>` (ScatteringModel.h 60-70). -/
def Plot.gt [LinearOrder K] (a b : Plot K) : Bool := if a.z > b.z then false else true

/-- `operator<` (ScatteringModel.h 72-82). -/
def Plot.lt [LinearOrder K] (a b : Plot K) : Bool := if a.z < b.z then false else true

/-- `JawImpactData` (ScatteringModel.h 23-35). -/
structure Jaw (K : Type) where
  turn : Int
  ID : Int
  x : K
  xp : K
  y : K
  yp : K
  ct : K
  dp : K
  name : String

/-- An entry of a line. -/
inductive Entry (K : Type) where
  | text (s : String)
  | int (i : Int)
  | num (x : K)

/-- A file system: the lines of the file of each path. -/
abbrev Files (K : Type) := String → Option (List (List (Entry K)))

/-- The members of `ScatteringModel` used here (ScatteringModel.h 151-161). -/
structure State (K : Type) where
  plotNames : List String
  plotOn : Bool
  plots : List (Plot K)
  jawNames : List String
  jawOn : Bool
  jaws : List (Jaw K)

/-- The constructor (ScatteringModel.cpp 32-38). -/
def State.new : State K := ⟨[], false, [], [], false, []⟩

/-- `ScatterPlot` (ScatteringModel.cpp 321-334). -/
def scatterPlot (st : State K) (p : Particle K) (z : K) (turn : Int) (name : String) : State K :=
  { st with plots := st.plots ++ [⟨turn, p.id, p.x, p.xp, p.y, p.yp, z, name⟩] }

/-- `JawImpact` (ScatteringModel.cpp 336-350). -/
def jawImpact (st : State K) (p : Particle K) (turn : Int) (name : String) : State K :=
  { st with jaws := st.jaws ++ [⟨turn, p.id, p.x, p.xp, p.y, p.yp, p.ct, p.dp, name⟩] }

/-- `SetScatterPlot` (ScatteringModel.cpp 352-356); `single_turn` is not used. -/
def setScatterPlot (st : State K) (name : String) (_single_turn : Int) : State K :=
  { st with plotNames := st.plotNames ++ [name], plotOn := true }

/-- `SetJawImpact` (ScatteringModel.cpp 358-362); `single_turn` is not used. -/
def setJawImpact (st : State K) (name : String) (_single_turn : Int) : State K :=
  { st with jawNames := st.jawNames ++ [name], jawOn := true }

/-- The name of a file (ScatteringModel.cpp 370-371, 406-407). -/
def path (directory kind name : String) (seed : Int) : String :=
  directory ++ kind ++ name ++ "_" ++ toString seed ++ ".txt"

/-- Opening a file for output and writing all its lines. -/
def write (fs : Files K) (p : String) (lines : List (List (Entry K))) : Files K :=
  fun q => if q = p then some lines else fs q

/-- The heading of a scatter plot, at the tabs (ScatteringModel.cpp 381). -/
def plotHead : List (Entry K) := [.text "#", .text "particle_id", .text "z", .text "y", .text "turn"]

/-- The heading of jaw impacts, at the tabs (ScatteringModel.cpp 416). -/
def jawHead : List (Entry K) :=
  [.text "#", .text "particle_id", .text "x", .text "x'", .text "y", .text "y'", .text "ct", .text "dpctturn"]

/-- A line of a scatter plot (ScatteringModel.cpp 388-398). -/
def plotLine (d : Plot K) : List (Entry K) := [.int d.ID, .num d.z, .num d.x, .num d.y, .int d.turn]

/-- A line of jaw impacts (ScatteringModel.cpp 423-431). -/
def jawLine (d : Jaw K) : List (Entry K) :=
  [.int d.ID, .num d.x, .num d.xp, .num d.y, .num d.yp, .num d.ct, .num d.dp, .int d.turn]

/-- `OutputScatterPlot` (ScatteringModel.cpp 364-403). -/
def outputScatterPlot (st : State K) (fs : Files K) (directory : String) (seed : Int) : State K × Files K :=
  ({ st with plots := [] },
    st.plotNames.foldl (fun fs name => write fs (path directory "scatter_plot_" name seed)
      (plotHead :: (st.plots.filter fun d => d.name == name).map plotLine)) fs)

/-- `OutputJawImpact` (ScatteringModel.cpp 405-439). -/
def outputJawImpact (st : State K) (fs : Files K) (directory : String) (seed : Int) : State K × Files K :=
  ({ st with jaws := [] },
    st.jawNames.foldl (fun fs name => write fs (path directory "jaw_impact_" name seed)
      (jawHead :: (st.jaws.filter fun d => d.name == name).map jawLine)) fs)

/-- The records `DoScatter` makes for the steps of one particle, each with the particle and its position after the step
(CollimateProtonProcess.cpp 46-47, 88, 145-149).  Both flags are zero: the parts which set them (57-81) and which record the
impact (107-119) are commented out. -/
def doScatter (st : State K) (name : String) (turn : Int) (steps : List (Particle K × K)) : State K :=
  let scatter_plot := false
  steps.foldl (fun st s => if scatter_plot then scatterPlot st s.1 s.2 turn name else st) st

/-- A call made by the user or in tracking. -/
inductive Call (K : Type) where
  | setPlot (name : String) (single : Int)
  | setJaw (name : String) (single : Int)
  | scatter (name : String) (turn : Int) (steps : List (Particle K × K))

/-- One call. -/
def call (st : State K) : Call K → State K
  | .setPlot name single => setScatterPlot st name single
  | .setJaw name single => setJawImpact st name single
  | .scatter name turn steps => doScatter st name turn steps

end Verif.Impacts
