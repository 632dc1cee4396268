import Verif.PropsProblems
import Verif.RealLin

/-!
# The generator of random least-square problems

Model of `randomProblem`, src/test/randomProblems.cpp:15-251, in exact arithmetic. The random draws are arguments. The sizes and
counts are naturals (`ProblemCharacteristics::check` asserts that they are not negative).
-/

namespace JrlQp

open Finset

/-- `ProblemCharacteristics`, include/jrl-qp/test/randomProblems.h:16-32. -/
structure Charac where
  nVar : Nat
  nObj : Nat
  nEq : Nat
  nIneq : Nat
  rankObj : Nat
  nSharedRank : Nat
  nStrongIneq : Nat
  nWeakIneq : Nat
  nStrongBnd : Nat
  nWeakBnd : Nat
  bounds : Bool
  dbl : Bool
  strict : Bool

/-- `nstrong`, src/test/randomProblems.cpp:21-22. -/
def Charac.nstrong (ch : Charac) : Nat := ch.nEq + ch.nStrongIneq + ch.nStrongBnd

/-- `nBounds`, src/test/randomProblems.cpp:23. -/
def Charac.nBounds (ch : Charac) : Nat := if ch.bounds then ch.nVar else 0

/-- `colsTot`, src/test/randomProblems.cpp:33. -/
def Charac.colsTot (ch : Charac) : Nat := ch.nObj + ch.nstrong

/-- The asserts of `ProblemCharacteristics::check`, src/test/randomProblems.cpp:253-265. -/
structure Charac.Check (ch : Charac) : Prop where
  c1 : ch.nObj ≤ ch.nVar
  c2 : ch.nEq ≤ ch.nVar
  c3 : ch.nStrongIneq + ch.nWeakIneq ≤ ch.nIneq
  c4 : (ch.bounds = true ∧ ch.nStrongBnd + ch.nWeakBnd ≤ ch.nVar) ∨ (ch.bounds = false ∧ ch.nStrongBnd = 0 ∧ ch.nWeakBnd = 0)
  c5 : ch.nEq + ch.nStrongIneq + ch.nStrongBnd ≤ ch.nVar
  c6 : ch.rankObj ≤ ch.nObj
  c7 : ch.nSharedRank ≤ ch.rankObj

/-- What is drawn or computed by Eigen's rank-revealing QR in step 1: `A`, `Ca` are the results of `randn`/`randDependent`;
`perm` the indices of `colsPermutation()`, `Q`, `R` the factors of `ColPivHouseholderQR`; `rnd` the random vector. -/
structure Draw1 where
  A : Nat → Nat → ℝ
  Ca : Nat → Nat → ℝ
  perm : Equiv.Perm Nat
  Q : Nat → Nat → ℝ
  R : Nat → Nat → ℝ
  rnd : Nat → ℝ

/-- `Ca.bottomRows(nStrongActBounds).setIdentity()`, src/test/randomProblems.cpp:51, 76. -/
noncomputable def setIdBottom (nstrong nb : Nat) (Ca : Nat → Nat → ℝ) : Nat → Nat → ℝ := fun k j =>
  if nstrong - nb ≤ k ∧ k < nstrong then (if j = k - (nstrong - nb) then 1 else 0) else Ca k j

/-- `M`, rows of `A` then rows of `Ca`, src/test/randomProblems.cpp:54-55 (transposed there), 78-79. -/
def stackRows (nObj : Nat) (A Ca : Nat → Nat → ℝ) : Nat → Nat → ℝ := fun k j => if k < nObj then A k j else Ca (k - nObj) j

/-- Step 1, src/test/randomProblems.cpp:27-87: matrices `A`, `Ca` and vector `reducedMultipliers`. `none`: assertion of Eigen
(`rightCols` with more columns than there are). The asserts of `randDependent` are not modelled. -/
noncomputable def genStep1 (ch : Charac) (d : Draw1) : Option ((Nat → Nat → ℝ) × (Nat → Nat → ℝ) × (Nat → ℝ)) :=
  if ch.nObj = 0 then some (d.A, d.Ca, fun _ => 0)
  else if ch.nstrong = 0 then some (d.A, d.Ca, fun _ => 0)
  else if ch.nVar < ch.colsTot then
    let rankTot := min (ch.rankObj + ch.nstrong - ch.nSharedRank) ch.nVar
    let Ca := setIdBottom ch.nstrong ch.nStrongBnd d.Ca
    let v : Nat → ℝ := d.rnd
    let u := backSub d.R rankTot (fun i => -sumTo (fun j => d.R i (rankTot + j) * v j) (ch.colsTot - rankTot))
    let w : Nat → ℝ := fun i => if i < rankTot then u i else v (i - rankTot)
    some (d.A, Ca, fun i => w (d.perm.symm i))
  else
    let r := ch.rankObj + ch.nstrong - ch.nSharedRank
    let rankTot := if r = ch.nVar then ch.nVar - 1 else r
    let Ca := setIdBottom ch.nstrong ch.nStrongBnd d.Ca
    if ch.nVar - rankTot ≤ ch.colsTot then
      some (d.A, Ca, fun i => sumTo (fun t => d.Q i (ch.colsTot - (ch.nVar - rankTot) + t) * d.rnd t) (ch.nVar - rankTot))
    else none

/-- Step 2, src/test/randomProblems.cpp:89-102: one-sided inequalities get a non-negative multiplier. -/
noncomputable def genStep2 (ch : Charac) (Ca : Nat → Nat → ℝ) (mult : Nat → ℝ) : (Nat → Nat → ℝ) × (Nat → ℝ) :=
  if ch.dbl then (Ca, mult)
  else
    (fun k j => if ch.nEq ≤ k ∧ k < ch.nEq + ch.nStrongIneq ∧ mult (ch.nObj + k) < 0 then -Ca k j else Ca k j,
     fun k => if ch.nObj + ch.nEq ≤ k ∧ k < ch.nObj + ch.nEq + ch.nStrongIneq ∧ mult k < 0 then -mult k else mult k)

/-- The other random draws: the orthogonal matrix of step 4, the rows of inactive constraints, the solution, the offsets of steps 5,
and the indices of the two shuffles. -/
structure Draw2 where
  Qw : Nat → Nat → ℝ
  Cin : Nat → Nat → ℝ
  x : Nat → ℝ
  rl : Nat → ℝ
  ru : Nat → ℝ
  r : Nat → ℝ
  rxl : Nat → ℝ
  rxu : Nat → ℝ
  jRow : Nat → Nat
  jCol : Nat → Nat

/-- `RandomLeastSquare`, include/jrl-qp/test/randomProblems.h:118-124 and its base classes; the sizes are those of the
characteristics. -/
structure RLS where
  A : Nat → Nat → ℝ
  b : Nat → ℝ
  E : Nat → Nat → ℝ
  f : Nat → ℝ
  C : Nat → Nat → ℝ
  l : Nat → EReal
  u : Nat → ℝ
  xl : Nat → ℝ
  xu : Nat → ℝ
  x : Nat → ℝ
  lamEq : Nat → ℝ
  lamIneq : Nat → ℝ
  lamBnd : Nat → ℝ

/-- Sign of a number. -/
noncomputable def cwSign (v : ℝ) : ℝ := if 0 < v then 1 else if v < 0 then -1 else 0

/-- The rows of the weakly active constraints, src/test/randomProblems.cpp:127-156 (`Q1` is a part of the orthogonal matrix `Qw`).
`none`: sizes of the product `Q1.cwiseAbs() * mult.cwiseSign() * Ca` (assertion of Eigen: a column times a matrix with `nstrong`
rows). -/
noncomputable def genWeak (ch : Charac) (d : Draw2) (Ca : Nat → Nat → ℝ) (mult : Nat → ℝ) : Option (Nat → Nat → ℝ) :=
  if ch.strict then
    if ch.nstrong = 1 then some fun i j => sumTo (fun k => |d.Qw i k| * cwSign (mult (ch.nObj + k))) ch.nstrong * Ca 0 j
    else none
  else some fun i j => sumTo (fun k => d.Qw i k * Ca k j) ch.nstrong

/-- Steps 3 to 5, src/test/randomProblems.cpp:104-223. -/
noncomputable def genStep5 (ch : Charac) (d : Draw2) (A Ca : Nat → Nat → ℝ) (mult : Nat → ℝ) (Cw : Nat → Nat → ℝ) : RLS :=
  let s := ch.nStrongIneq
  let w := ch.nWeakIneq
  let lamIneq : Nat → ℝ := fun i => if i < s then mult (ch.nObj + ch.nEq + i) else 0
  let lamBnd : Nat → ℝ := fun i => if i < ch.nStrongBnd then mult (ch.nObj + (ch.nstrong - ch.nStrongBnd) + i) else 0
  let C0 : Nat → Nat → ℝ := fun i j => if i < s then Ca (ch.nEq + i) j else if i < s + w then Cw (i - s) j else d.Cin (i - (s + w)) j
  let cx : Nat → ℝ := fun i => sumTo (fun j => C0 i j * d.x j) ch.nVar
  let flip : Nat → Prop := fun i => s ≤ i ∧ i < s + w ∧ ch.dbl = true ∧ ¬ |d.ru i| < |d.rl i|
  open Classical in
  { A := A, E := fun i j => Ca i j, x := d.x, lamEq := fun i => mult (ch.nObj + i), lamIneq := lamIneq, lamBnd := lamBnd
    b := fun k => sumTo (fun j => A k j * d.x j) ch.nVar - mult k
    f := fun i => sumTo (fun j => Ca i j * d.x j) ch.nVar
    C := fun i j => if flip i then -C0 i j else C0 i j
    l := fun i => if ch.dbl then
        ((if i < s then (if 0 < lamIneq i then cx i - |d.rl i| else cx i)
          else if i < s + w then (if |d.ru i| < |d.rl i| then cx i - |d.rl i| else cx i)
          else cx i - |d.rl i| : ℝ) : EReal)
      else ⊥
    u := fun i => if ch.dbl then
        (if i < s then (if 0 < lamIneq i then cx i else cx i + |d.ru i|)
          else if i < s + w then (if |d.ru i| < |d.rl i| then cx i else -cx i + |d.ru i|)
          else cx i + |d.ru i|)
      else if i < s + w then cx i else cx i + |d.ru i|
    xl := fun i => if i < ch.nStrongBnd then (if 0 < lamBnd i then d.x i - |d.r i| else d.x i)
      else if i < ch.nStrongBnd + ch.nWeakBnd then (if 0 < d.r i then d.x i - d.r i else d.x i)
      else d.x i - |d.rxl i|
    xu := fun i => if i < ch.nStrongBnd then (if 0 < lamBnd i then d.x i else d.x i + |d.r i|)
      else if i < ch.nStrongBnd + ch.nWeakBnd then (if 0 < d.r i then d.x i else d.x i - d.r i)
      else d.x i + |d.rxu i| }

/-- Swap of two constraints, src/test/randomProblems.cpp:230-233. -/
def RLS.swapRow (ch : Charac) (p : RLS) (i j : Nat) : RLS :=
  { p with C := fun k => p.C (Equiv.swap i j k), u := fun k => p.u (Equiv.swap i j k), lamIneq := fun k => p.lamIneq (Equiv.swap i j k),
           l := if ch.dbl then fun k => p.l (Equiv.swap i j k) else p.l }

/-- Swap of two variables, src/test/randomProblems.cpp:240-246. -/
def RLS.swapCol (p : RLS) (i j : Nat) : RLS :=
  { p with A := fun k a => p.A k (Equiv.swap i j a), C := fun k a => p.C k (Equiv.swap i j a), E := fun k a => p.E k (Equiv.swap i j a),
           xl := fun a => p.xl (Equiv.swap i j a), xu := fun a => p.xu (Equiv.swap i j a),
           lamBnd := fun a => p.lamBnd (Equiv.swap i j a), x := fun a => p.x (Equiv.swap i j a) }

/-- The first shuffle, `for(int i = nIneq - 1; i > 0; --i)`, src/test/randomProblems.cpp:227-234; the argument is `i`. -/
def shuffleRows (ch : Charac) (jRow : Nat → Nat) : Nat → RLS → RLS
  | 0, p => p
  | i + 1, p => shuffleRows ch jRow i (p.swapRow ch (i + 1) (jRow (i + 1)))

/-- The second shuffle, `for(int i = nVar - 1; i > 0; --i)`, src/test/randomProblems.cpp:235-248; the argument is `i`. -/
def shuffleCols (jCol : Nat → Nat) : Nat → RLS → RLS
  | 0, p => p
  | i + 1, p => shuffleCols jCol i (p.swapCol (i + 1) (jCol (i + 1)))

/-- `randomProblem`, src/test/randomProblems.cpp:15-251, after `check()`. -/
noncomputable def randomProblem (ch : Charac) (d1 : Draw1) (d2 : Draw2) : Option RLS :=
  (genStep1 ch d1).bind fun (ACm : (Nat → Nat → ℝ) × (Nat → Nat → ℝ) × (Nat → ℝ)) =>
    let Cm := genStep2 ch ACm.2.1 ACm.2.2
    (genWeak ch d2 Cm.1 Cm.2).map fun Cw =>
      let p := shuffleRows ch d2.jRow (ch.nIneq - 1) (genStep5 ch d2 ACm.1 Cm.1 Cm.2 Cw)
      if ch.bounds then shuffleCols d2.jCol (ch.nVar - 1) p else p

/-- The generated problem, as a `LeastSquareProblem<true>`. -/
def RLS.pb (ch : Charac) (p : RLS) : SepLs where
  cost := ⟨⟨ch.nObj, ch.nVar, p.A⟩, ⟨ch.nObj, p.b⟩⟩
  cstr := { C := ⟨ch.nIneq, ch.nVar, p.C⟩, l := ⟨ch.nIneq, p.l⟩, u := ⟨ch.nIneq, fun i => (p.u i : EReal)⟩,
            xl := ⟨ch.nBounds, fun i => (p.xl i : EReal)⟩, xu := ⟨ch.nBounds, fun i => (p.xu i : EReal)⟩, tr := false,
            E := ⟨ch.nEq, ch.nVar, p.E⟩, f := ⟨ch.nEq, p.f⟩ }

end JrlQp
