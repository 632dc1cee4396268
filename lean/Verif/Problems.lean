import Verif.Solver

/-!
# Problem descriptions and Karush-Kuhn-Tucker checker of the `test` library

Model of include/jrl-qp/test/problems.h, src/test/problems.cpp and src/test/kkt.cpp, in exact arithmetic: coefficients are
real numbers, the sides of the constraints are extended reals (`std::numeric_limits<double>::infinity()` is used by the
callers). Vectors and matrices carry their sizes, because these functions are about sizes too; coefficients out of the sizes
are never looked at.
-/

namespace JrlQp

open Classical

/-- `Eigen::MatrixXd`: sizes and coefficients. -/
structure Mx where
  rows : Nat
  cols : Nat
  at' : Nat → Nat → ℝ

/-- `Eigen::VectorXd`: size and coefficients. -/
structure Vx (α : Type) where
  size : Nat
  at' : Nat → α

/-- `FeasibilityConstraints`, include/jrl-qp/test/problems.h:16-32. -/
structure Feas where
  C : Mx
  l : Vx EReal
  u : Vx EReal
  xl : Vx EReal
  xu : Vx EReal
  tr : Bool

/-- `SeparatedFeasibilityConstraints`, include/jrl-qp/test/problems.h:41-55. -/
structure SepFeas extends Feas where
  E : Mx
  f : Vx ℝ

/-- `FeasibilityConstraints::wellFormed(noEq)`, src/test/problems.cpp:28-45. The returned boolean as a proposition. Coefficient
wise comparisons are over the size of the left vector (Eigen asserts in debug mode that both have the same size: `b1`, `b3`
say so). -/
structure Feas.WellFormed (c : Feas) (noEq : Bool) : Prop where
  b1 : c.l.size = c.u.size
  b2 : if c.tr then c.l.size = c.C.cols else c.l.size = c.C.rows
  b3 : c.xl.size = c.xu.size
  b4 : c.xl.size ≠ 0 → if c.tr then c.xl.size = c.C.rows else c.xl.size = c.C.cols
  b5 : if noEq then ∀ i < c.l.size, c.l.at' i < c.u.at' i else ∀ i < c.l.size, c.l.at' i ≤ c.u.at' i
  b6 : ∀ i < c.xl.size, c.xl.at' i ≤ c.xu.at' i

/-- `SeparatedFeasibilityConstraints::wellFormed`, src/test/problems.cpp:106-112. -/
structure SepFeas.WellFormed (c : SepFeas) : Prop where
  b1 : c.toFeas.WellFormed true
  b2 : if c.tr then c.C.rows = c.E.rows else c.C.cols = c.E.cols
  b3 : if c.tr then c.f.size = c.E.cols else c.f.size = c.E.rows

/-- `FeasibilityConstraints::FeasibilityConstraints(const SeparatedFeasibilityConstraints &)`, src/test/problems.cpp:7-26,
for a well formed argument (asserted in debug mode). -/
noncomputable def Feas.ofSep (c : SepFeas) : Feas where
  C := if c.tr then ⟨c.C.rows, c.C.cols + c.E.cols, fun i j => if j < c.E.cols then c.E.at' i j else c.C.at' i (j - c.E.cols)⟩
    else ⟨c.C.rows + c.E.rows, c.C.cols, fun i j => if i < c.E.rows then c.E.at' i j else c.C.at' (i - c.E.rows) j⟩
  l := ⟨c.l.size + c.f.size, fun i => if i < c.f.size then (c.f.at' i : EReal) else c.l.at' (i - c.f.size)⟩
  u := ⟨c.u.size + c.f.size, fun i => if i < c.f.size then (c.f.at' i : EReal) else c.u.at' (i - c.f.size)⟩
  xl := c.xl
  xu := c.xu
  tr := c.tr

/-- `SeparatedFeasibilityConstraints::SeparatedFeasibilityConstraints(const FeasibilityConstraints & feas)`,
src/test/problems.cpp:47-104. The first loop (lines 54-57) reads `l[i]` and `u[i]` of the object under construction, whose
vectors are empty: an access out of bounds as soon as it has one turn. With no turn, `neq` stays 0, the matrices are resized
(lines 62-63 or 83-84) and no other loop has a turn; the content of `C` is then not initialised, we take zeros. -/
noncomputable def SepFeas.ofFeas (feas : Feas) : Except Fault SepFeas :=
  if 0 < feas.l.size then .error .outOfBounds
  else .ok { C := ⟨feas.C.rows, feas.C.cols, fun _ _ => 0⟩
             l := ⟨0, fun _ => 0⟩
             u := ⟨0, fun _ => 0⟩
             xl := feas.xl
             xu := feas.xu
             tr := feas.tr
             E := if feas.tr then ⟨feas.C.rows, 0, fun _ _ => 0⟩ else ⟨0, feas.C.cols, fun _ _ => 0⟩
             f := ⟨0, fun _ => 0⟩ }

/-- Own members of `LeastSquareProblem`, include/jrl-qp/test/problems.h:63-72 (the constraints are inherited). -/
structure LsCost where
  A : Mx
  b : Vx ℝ

/-- Own members of `QPProblem`, include/jrl-qp/test/problems.h:80-101 (the constraints are inherited). -/
structure QpCost where
  G : Mx
  a : Vx ℝ
  objCst : ℝ

/-- The initialisers `G(ls.A.transpose() * ls.A), a(-ls.A.transpose() * ls.b)` and the default value of `objCst`,
include/jrl-qp/test/problems.h:100, 112-116. -/
noncomputable def QpCost.ofLs (ls : LsCost) : QpCost where
  G := ⟨ls.A.cols, ls.A.cols, fun i j => sumTo (fun k => ls.A.at' k i * ls.A.at' k j) ls.A.rows⟩
  a := ⟨ls.A.cols, fun i => sumTo (fun k => -ls.A.at' k i * ls.b.at' k) ls.A.rows⟩
  objCst := 0

/-- The initialisers `G(qp.G), a(qp.a)` and the default value of `objCst`,
`QPProblem<Separated>::QPProblem(const QPProblem<!Separated> & qp)`, include/jrl-qp/test/problems.h:100, 118-121. -/
def QpCost.ofQp (qp : QpCost) : QpCost where
  G := qp.G
  a := qp.a
  objCst := 0

/-- `QPProblem<false>`. -/
structure Qp where
  cstr : Feas
  cost : QpCost

/-- `QPProblem<true>`. -/
structure SepQp where
  cstr : SepFeas
  cost : QpCost

/-- `LeastSquareProblem<false>`. -/
structure Ls where
  cstr : Feas
  cost : LsCost

/-- `LeastSquareProblem<true>`. -/
structure SepLs where
  cstr : SepFeas
  cost : LsCost

/-- `QPProblem<false>::QPProblem(const QPProblem<true> &)`, include/jrl-qp/test/problems.h:118-121; `Base(qp)` is the
conversion from the separated constraints (a better match than the copy constructor). -/
noncomputable def Qp.ofSepQp (qp : SepQp) : Qp := ⟨Feas.ofSep qp.cstr, QpCost.ofQp qp.cost⟩

/-- `QPProblem<true>::QPProblem(const QPProblem<false> &)`, include/jrl-qp/test/problems.h:118-121. -/
noncomputable def SepQp.ofQp (qp : Qp) : Except Fault SepQp := (SepFeas.ofFeas qp.cstr).map fun c => ⟨c, QpCost.ofQp qp.cost⟩

/-- `QPProblem<false>::QPProblem(const LeastSquareProblem<false> &)`, include/jrl-qp/test/problems.h:110-116. -/
noncomputable def Qp.ofLs (ls : Ls) : Qp := ⟨ls.cstr, QpCost.ofLs ls.cost⟩

/-- `QPProblem<false>::QPProblem(const LeastSquareProblem<true> &)`, include/jrl-qp/test/problems.h:110-116. -/
noncomputable def Qp.ofSepLs (ls : SepLs) : Qp := ⟨Feas.ofSep ls.cstr, QpCost.ofLs ls.cost⟩

/-- `QPProblem<true>::QPProblem(const LeastSquareProblem<true> &)`, include/jrl-qp/test/problems.h:110-116. -/
noncomputable def SepQp.ofSepLs (ls : SepLs) : SepQp := ⟨ls.cstr, QpCost.ofLs ls.cost⟩

/-- `QPProblem<true>::QPProblem(const LeastSquareProblem<false> &)`, include/jrl-qp/test/problems.h:110-116. -/
noncomputable def SepQp.ofLs (ls : Ls) : Except Fault SepQp :=
  (SepFeas.ofFeas ls.cstr).map fun c => ⟨c, QpCost.ofLs ls.cost⟩

/-- `LeastSquareProblem<false>::wellFormed`, include/jrl-qp/test/problems.h:101-108. -/
structure Ls.WellFormed (ls : Ls) : Prop where
  b1 : ls.cstr.WellFormed false
  b2 : if ls.cstr.tr then ls.cost.A.cols = ls.cstr.C.rows else ls.cost.A.cols = ls.cstr.C.cols
  b3 : ls.cost.A.rows = ls.cost.b.size

/-- `LeastSquareProblem<true>::wellFormed`, include/jrl-qp/test/problems.h:101-108. -/
structure SepLs.WellFormed (ls : SepLs) : Prop where
  b1 : ls.cstr.WellFormed
  b2 : if ls.cstr.tr then ls.cost.A.cols = ls.cstr.C.rows else ls.cost.A.cols = ls.cstr.C.cols
  b3 : ls.cost.A.rows = ls.cost.b.size

/-- `QPProblem<false>::wellFormed`, include/jrl-qp/test/problems.h:137-145. -/
structure Qp.WellFormed (qp : Qp) : Prop where
  b1 : qp.cstr.WellFormed false
  b2 : if qp.cstr.tr then qp.cost.G.cols = qp.cstr.C.rows else qp.cost.G.cols = qp.cstr.C.cols
  b3 : qp.cost.G.cols = qp.cost.a.size
  b4 : qp.cost.G.cols = qp.cstr.C.cols

/-! ### Checker -/

/-- Absolute value of a slack. -/
noncomputable def eabs (v : EReal) : EReal := max v (-v)

/-- `lpNorm<Infinity>()`: the largest absolute value, 0 for an empty vector. -/
noncomputable def normInf (v : Vx ℝ) : ℝ := (List.range v.size).foldl (fun m i => max m |v.at' i|) 0

/-- `checkKKTConstraint`, src/test/kkt.cpp:14-22. -/
noncomputable def checkKKTConstraint (cx : ℝ) (bl bu : EReal) (u τx τu : ℝ) : Bool :=
  let li : EReal := (cx : EReal) - bl
  let ui : EReal := (cx : EReal) - bu
  let b1 := decide (eabs li ≤ (τx : EReal)) && decide (u ≤ -τu)
  let b2 := decide (((-τx : ℝ) : EReal) ≤ li) && decide (ui ≤ (τx : EReal)) && decide (|u| ≤ τu)
  let b3 := decide (eabs ui ≤ (τx : EReal)) && decide (τu ≤ u)
  b1 || b2 || b3

/-- Conditions asserted by the last overload of `checkDimensions`, src/test/kkt.cpp:74-85 with 27-41. -/
structure FeasDims (x u : Vx ℝ) (c : Feas) : Prop where
  u_size : u.size = c.l.size + c.xl.size
  C_size : (c.tr = false ∧ c.C.rows = c.l.size ∧ c.C.cols = x.size) ∨ (c.tr = true ∧ c.C.rows = x.size ∧ c.C.cols = c.l.size)
  bu_size : c.u.size = c.l.size
  xl_size : c.xl.size = 0 ∨ c.xl.size = x.size
  xu_size : c.xu.size = c.xl.size

/-- Conditions asserted by the other overload of `checkDimensions`, src/test/kkt.cpp:58-72 with 43-56 and 27-41. -/
structure KktDims (x u : Vx ℝ) (G : Mx) (a : Vx ℝ) (c : Feas) : Prop where
  x_size : x.size = a.size
  G_size : G.rows = a.size ∧ G.cols = a.size
  feas : FeasDims x u c

/-- Coefficient `(k, i)` of the matrix whose column `i` is the normal of the constraint `i`: `C` if it is transposed, its
transpose otherwise. -/
def Feas.nrm (c : Feas) (k i : Nat) : ℝ := if c.tr then c.C.at' k i else c.C.at' i k

/-- `testKKTStationarity`, src/test/kkt.cpp:111-142. With wrong sizes the debug build asserts and the release build reads out
of bounds. -/
noncomputable def testKKTStationarity (dbg : Bool) (x u : Vx ℝ) (G : Mx) (a : Vx ℝ) (c : Feas) (τd : ℝ) : Except Fault Bool :=
  if KktDims x u G a c then
    let n := x.size
    let m := c.l.size
    let τu := τd * (1 + normInf u)
    let dL : Vx ℝ := ⟨n, fun k => sumTo (fun j => G.at' k j * x.at' j) n + a.at' k +
      (if c.xl.size ≠ 0 then u.at' (m + k) else 0) + sumTo (fun i => c.nrm k i * u.at' i) m⟩
    .ok (decide (normInf dL ≤ τu))
  else .error (if dbg then .assertFailed else .outOfBounds)

/-- `testKKTFeasibility`, src/test/kkt.cpp:152-186. Same remark on the sizes. -/
noncomputable def testKKTFeasibility (dbg : Bool) (x u : Vx ℝ) (c : Feas) (τp τd : ℝ) : Except Fault Bool :=
  if FeasDims x u c then
    let τx := τp * (1 + normInf x)
    let τu := τd * (1 + normInf u)
    let cx := fun i => sumTo (fun k => c.nrm k i * x.at' k) x.size
    .ok ((List.range c.l.size).all (fun i => checkKKTConstraint (cx i) (c.l.at' i) (c.u.at' i) (u.at' i) τx τu) &&
      (List.range c.xl.size).all
        (fun i => checkKKTConstraint (x.at' i) (c.xl.at' i) (c.xu.at' i) (u.at' (c.l.size + i)) τx τu))
  else .error (if dbg then .assertFailed else .outOfBounds)

/-- `testKKT`, src/test/kkt.cpp:87-103. -/
noncomputable def testKKT (dbg : Bool) (x u : Vx ℝ) (G : Mx) (a : Vx ℝ) (c : Feas) (τp τd : ℝ) : Except Fault Bool := do
  let b1 ← testKKTStationarity dbg x u G a c τd
  let b2 ← testKKTFeasibility dbg x u c τp τd
  return b1 && b2

/-- The overload of `testKKT` on a `QPProblem<>`, src/test/kkt.cpp:105-109. -/
noncomputable def testKKTqp (dbg : Bool) (x u : Vx ℝ) (qp : Qp) (τp τd : ℝ) : Except Fault Bool :=
  testKKT dbg x u qp.cost.G qp.cost.a qp.cstr τp τd

end JrlQp
