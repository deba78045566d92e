import Mathlib.Algebra.Field.Basic
import Verif.Common.Outcome

/-!
# Model of covariance matrices and sparse linear maps

Merlin++/TCovMtrx.h, Merlin++/PSmoments.h, Merlin++/RMap.h, Merlin++/RMap.cpp, Merlin++/RTMap.h and
Merlin++/RTMap.cpp.  Doubles are elements of a field.  Arrays are functions from their indices, of which only
those within the array are used.
-/

namespace Verif.LinMap
open Verif

variable {K : Type} [Field K]

/-- `TCovMtrx<T, N>::data` (TCovMtrx.h 124). -/
abbrev Cov (K : Type) := Nat → K

/-- `offset(int, int)` (TCovMtrx.h 27-30). -/
def off (i j : Nat) : Nat := if i > j then j + (i * (i + 1)) / 2 else i + (j * (j + 1)) / 2

/-- `offset(int)` (TCovMtrx.h 31-34). -/
def off1 (i : Nat) : Nat := (i * (i + 3)) / 2

/-- The const `sig` and `operator()` (TCovMtrx.h 70-73, 96-99): zero outside of the matrix. -/
def sig (n : Nat) (c : Cov K) (i j : Nat) : K := if i < n ∧ j < n then c (off i j) else 0

/-- The const `var` (TCovMtrx.h 56-59). -/
def var (n : Nat) (c : Cov K) (i : Nat) : K := if i < n then c (off1 i) else 0

/-- Assignment to an element of an array. -/
def upd (c : Nat → K) (k : Nat) (v : K) : Nat → K := fun n => if n = k then v else c n

/-- Assignment to `sig(i, j)` (TCovMtrx.h 75-79), of which the assertion is not modelled. -/
def setSig (c : Cov K) (i j : Nat) (v : K) : Cov K := upd c (off i j) v

/-- Assignment to `var(i)` (TCovMtrx.h 60-64). -/
def setVar (c : Cov K) (i : Nat) (v : K) : Cov K := upd c (off1 i) v

/-- `Zero` (TCovMtrx.h 105-108). -/
def zeroCov (n : Nat) (c : Cov K) : Cov K := fun k => if k < (n * (n + 1)) / 2 then 0 else c k

/-- The loop of `operator==` (TCovMtrx.h 133-139) over the first `k` elements. -/
def eqLoop [DecidableEq K] (a b : Cov K) : Nat → Bool
  | 0 => true
  | k + 1 => eqLoop a b k && decide (a k = b k)

/-- `operator==` (TCovMtrx.h 127-142). -/
def covEq [DecidableEq K] (n : Nat) (a b : Cov K) : Bool := eqLoop a b ((n * (n + 1)) / 2)

/-- `RMap::Rij` (RMap.h 41-57), with indices from zero. -/
structure Rij (K : Type) where
  i : Nat
  j : Nat
  val : K
  deriving DecidableEq, Repr

/-- `RMap::rterms` (RMap.h 209) from `begin()` to `end()`. -/
abbrev Map (K : Type) := List (Rij K)

/-- `LinearTermArray::push_back` (RMap.h 71-75): the array has 36 places. -/
def pushBack (m : Map K) (t : Rij K) : Outcome Unit (Map K) := if m.length < 36 then .ok (m ++ [t]) else .ub

/-- `AddTerm` (RMap.h 179-187), with indices from one; other indices are outside of the model. -/
def addTerm (m : Map K) (i j : Nat) (v : K) : Outcome Unit (Map K) :=
  if i = 0 ∨ j = 0 then .ub else pushBack m ⟨i - 1, j - 1, v⟩

/-- `Rij::Apply` (RMap.h 52-55) with the assertions of `PSvector::operator[]` (PSvector.h 72-76, 110-114). -/
def applyTerm (x : Nat → K) (y : Nat → K) (t : Rij K) : Outcome Unit (Nat → K) :=
  if t.i < 6 ∧ t.j < 6 then .ok (upd y t.i (y t.i + t.val * x t.j)) else .ub

/-- The loop over the terms of `RMap::Apply(const PSvector&, PSvector&)` (RMap.cpp 47-53). -/
def applyLoop (x : Nat → K) : Map K → (Nat → K) → Outcome Unit (Nat → K)
  | [], y => .ok y
  | t :: m, y => (applyTerm x y t).bind (fun y => applyLoop x m y)

/-- `RMap::Apply` on a vector, starting from zero. -/
def applyVec (m : Map K) (x : Nat → K) : Outcome Unit (Nat → K) := applyLoop x m (fun _ => 0)

/-- `map2nd` (RMap.h 195-204). -/
def map2nd (n : Nat) (res : Cov K) (r1 r2 : Rij K) (orig : Cov K) : Cov K :=
  if r1.i < n ∧ r2.i < n ∧ r1.j < n ∧ r2.j < n then
    let v := r1.val * r2.val * sig n orig r1.j r2.j
    setSig res r1.i r2.i (sig n res r1.i r2.i + if r1.i = r2.i then v else v / 2)
  else res

/-- The inner loop of `Apply` (RMap.h 137-140, 155-158). -/
def covInner (n : Nat) (s : Cov K) (t1 : Rij K) : Map K → Cov K → Cov K
  | [], res => res
  | t2 :: m, res => covInner n s t1 m (map2nd n res t1 t2 s)

/-- The outer loop of `Apply` (RMap.h 135-141). -/
def covOuter (n : Nat) (s : Cov K) (all : Map K) : Map K → Cov K → Cov K
  | [], res => res
  | t1 :: m, res => covOuter n s all m (covInner n s t1 all res)

/-- `RMap::Apply(TCovMtrx<T, N>&)` (RMap.h 131-143). -/
def applyCov (n : Nat) (m : Map K) (s : Cov K) : Cov K := covOuter n s m m (zeroCov n s)

/-- `RMap::ToMatrix` (RMap.cpp 13-24) over the terms. -/
def toMatrix : Map K → (Nat → Nat → K) → (Nat → Nat → K)
  | [], r => r
  | t :: m, r => toMatrix m (fun a b => if a = t.i ∧ b = t.j then t.val else r a b)

/-- `FindTerm` (RMap.cpp 55-64). -/
def findTerm (m : Map K) (i j : Nat) : Option (Rij K) := m.find? (fun t => decide (t.i = i ∧ t.j = j))

/-- The const `operator()` (RMap.cpp 66-70) with indices from one. -/
def get (m : Map K) (i j : Nat) : K := match findTerm m (i - 1) (j - 1) with | some t => t.val | none => 0

/-- Assignment to the term found. -/
def assignFirst : Map K → Nat → Nat → K → Map K
  | [], _, _, _ => []
  | t :: m, i, j, v => if t.i = i ∧ t.j = j then ⟨t.i, t.j, v⟩ :: m else t :: assignFirst m i j v

/-- Assignment to `operator()(i, j)` (RMap.cpp 72-84) with indices from one. -/
def assign (m : Map K) (i j : Nat) (v : K) : Outcome Unit (Map K) :=
  if i = 0 ∨ j = 0 then .ub
  else match findTerm m (i - 1) (j - 1) with
    | some _ => .ok (assignFirst m (i - 1) (j - 1) v)
    | none => pushBack m ⟨i - 1, j - 1, v⟩

/-- The inner loop of `RMap(const RealMatrix&)` (RMap.cpp 91-97). -/
def rowTerms [DecidableEq K] (r : Nat → Nat → K) (i : Nat) (nc : Nat) : Map K :=
  (List.range nc).filterMap (fun j => if r i j ≠ 0 then some ⟨i, j, r i j⟩ else none)

/-- `RMap(const RealMatrix&)` (RMap.cpp 86-98). -/
def ofMatrix [DecidableEq K] (nr nc : Nat) (r : Nat → Nat → K) : Map K :=
  (List.range nr).flatMap (fun i => rowTerms r i nc)

/-- `MakeIdentity` (RMap.cpp 100-106). -/
def makeIdentity (m : Map K) (ndf : Nat) : Outcome Unit (Map K) :=
  (List.range (2 * ndf)).foldl (fun m i => m.bind (fun m => addTerm m (i + 1) (i + 1) 1)) (.ok m)

/-- `RTMap::Tijk` (RTMap.h 24-39). -/
structure Tijk (K : Type) where
  i : Nat
  j : Nat
  k : Nat
  val : K
  deriving DecidableEq, Repr

/-- The loop over the second order terms (RTMap.cpp 48-52) with `Tijk::Apply` (RTMap.h 33-36). -/
def applyT (x : Nat → K) : List (Tijk K) → (Nat → K) → Outcome Unit (Nat → K)
  | [], y => .ok y
  | t :: m, y =>
    if t.i < 6 ∧ t.j < 6 ∧ t.k < 6 then applyT x m (upd y t.i (y t.i + t.val * x t.j * x t.k)) else .ub

/-- `RTMap::Apply` (RTMap.cpp 41-57): the vector and the identity of the particle. -/
def applyRT (m : Map K) (ts : List (Tijk K)) (x : (Nat → K) × Int) : Outcome Unit ((Nat → K) × Int) :=
  (applyLoop x.1 m (fun _ => 0)).bind (fun y => (applyT x.1 ts y).bind (fun y => .ok (y, x.2)))

/-- An `RMap` in memory: the place of its array, the terms, and the place of the array into which `last` points
(RMap.h 65-70). -/
structure Obj (K : Type) where
  addr : Nat
  terms : Map K
  lastIn : Nat

/-- `RMap()` (RMap.h 112-116). -/
def Obj.new (addr : Nat) : Obj K := ⟨addr, [], addr⟩

/-- The implicit copy constructor of `RMap` copies the array and the pointer `last`. -/
def Obj.copy (o : Obj K) (addr : Nat) : Obj K := ⟨addr, o.terms, o.lastIn⟩

/-- A loop from `begin()` to `end()`: if `last` is not in the array, the loop leaves it. -/
def Obj.loop (o : Obj K) : Outcome Unit (Map K) := if o.lastIn = o.addr then .ok o.terms else .ub

/-- `R2Map` (RMap.h 214-247). -/
structure R2 (K : Type) where
  r11 : K
  r12 : K
  r21 : K
  r22 : K
  deriving DecidableEq, Repr

/-- `ApplyR2Map(const R2Map&, PSvector&, int)` (RMap.h 254-261). -/
def applyR2Vec (r : R2 K) (x : Nat → K) (plane : Nat) : Nat → K :=
  let p := 2 * plane
  let x1 := r.r11 * x p + r.r12 * x (p + 1)
  let x2 := r.r21 * x p + r.r22 * x (p + 1)
  upd (upd x p x1) (p + 1) x2

/-- `ApplyR2Map(const R2Map&, TPSMoments<2>&, int)` (RMap.h 266-288), the second moments. -/
def applyR2Cov (r : R2 K) (s : Cov K) (plane : Nat) : Cov K :=
  let p := 2 * plane
  let g := sig 4 s
  let s11 := r.r11 * r.r11 * g p p + (r.r12 * r.r11 + r.r11 * r.r12) * g (p + 1) p + r.r12 * r.r12 * g (p + 1) (p + 1)
  let s12 := r.r11 * r.r21 * g p p + (r.r12 * r.r21 + r.r11 * r.r22) * g (p + 1) p + r.r12 * r.r22 * g (p + 1) (p + 1)
  let s22 := r.r21 * r.r21 * g p p + (r.r22 * r.r21 + r.r21 * r.r22) * g (p + 1) p + r.r22 * r.r22 * g (p + 1) (p + 1)
  setSig (setSig (setSig s p p s11) (p + 1) p s12) (p + 1) (p + 1) s22

/-- `ApplyR2Map(const R2Map&, TPSMoments<2>&, const R2Map&)` (RMap.h 292-321). -/
def applyR2Coupled (rx : R2 K) (s : Cov K) (ry : R2 K) : Cov K :=
  let g := sig 4 s
  let s13 := rx.r11 * ry.r11 * g 0 2 + rx.r11 * ry.r12 * g 0 3 + rx.r12 * ry.r11 * g 1 2 + rx.r12 * ry.r12 * g 1 3
  let s14 := rx.r11 * ry.r21 * g 0 2 + rx.r11 * ry.r22 * g 0 3 + rx.r12 * ry.r21 * g 1 2 + rx.r12 * ry.r22 * g 1 3
  let s23 := rx.r21 * ry.r11 * g 0 2 + rx.r21 * ry.r12 * g 0 3 + rx.r22 * ry.r11 * g 1 2 + rx.r22 * ry.r12 * g 1 3
  let s24 := rx.r21 * ry.r21 * g 0 2 + rx.r21 * ry.r22 * g 0 3 + rx.r22 * ry.r21 * g 1 2 + rx.r22 * ry.r22 * g 1 3
  setSig (setSig (setSig (setSig s 0 2 s13) 0 3 s14) 1 2 s23) 1 3 s24

/-- The three calls for a slice (SMPStdIntegrators.cpp 52-54, 66-68, 162-164), the second moments. -/
def applyPlanes (rx ry : R2 K) (s : Cov K) : Cov K := applyR2Coupled rx (applyR2Cov ry (applyR2Cov rx s 0) 1) ry

/-- `ApplySimpleDrift::Apply(PSvector&)` (RMap.h 366-370). -/
def driftVec (z : K) (x : Nat → K) : Nat → K :=
  let x := upd x 0 (x 0 + z * x 1)
  upd x 2 (x 2 + z * x 3)

/-- An assignment `s(i, j) += v`. -/
def addSig (n : Nat) (s : Cov K) (i j : Nat) (v : K) : Cov K := setSig s i j (sig n s i j + v)

/-- `ApplySimpleDrift::Apply(TPSMoments<2>&)` (RMap.h 375-385), the second moments, for matrices of dimension
`n`. -/
def driftCov4 (n : Nat) (z : K) (s : Cov K) : Cov K :=
  let s := addSig n s 0 0 (z * (2 * sig n s 0 1 + z * sig n s 1 1))
  let s := addSig n s 0 1 (z * sig n s 1 1)
  let s := addSig n s 0 2 (z * (sig n s 0 3 + sig n s 1 2 + z * sig n s 1 3))
  let s := addSig n s 0 3 (z * sig n s 1 3)
  let s := addSig n s 1 2 (z * sig n s 1 3)
  let s := addSig n s 2 2 (z * (2 * sig n s 2 3 + z * sig n s 3 3))
  addSig n s 2 3 (z * sig n s 3 3)

/-- `ApplySimpleDrift::Apply(TPSMoments<3>&)` (RMap.h 390-404), the second moments. -/
def driftCov6 (z : K) (s : Cov K) : Cov K :=
  let s := driftCov4 6 z s
  let s := addSig 6 s 0 4 (z * sig 6 s 1 4)
  let s := addSig 6 s 0 5 (z * sig 6 s 1 5)
  let s := addSig 6 s 2 4 (z * sig 6 s 3 4)
  addSig 6 s 2 5 (z * sig 6 s 3 5)

/-- `ApplyDriftWithPathLength::Apply` (RMap.h 426-431). -/
def driftPath (z : K) (x : Nat → K) : Nat → K :=
  let x := upd x 0 (x 0 + z * x 1)
  let x := upd x 2 (x 2 + z * x 3)
  upd x 4 (x 4 - z * (x 1 * x 1 + x 3 * x 3) / 2)

/-- `map_applicator_dp::operator()` (RMap.h 455-461) for a map that does not fail. -/
def applyDp (ratio : K) (f : (Nat → K) → (Nat → K)) (x : Nat → K) : Nat → K :=
  upd (f (upd x 5 (ratio * (1 + x 5) - 1))) 5 (x 5)

end Verif.LinMap
