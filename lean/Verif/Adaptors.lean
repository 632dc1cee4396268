import Verif.Problems

/-!
# Adaptors to the problem formats of other solvers

Model of benchmarks/problemAdaptors.h and benchmarks/problemAdaptors.cpp, in exact arithmetic with extended reals for the sides, as in
`Problems.lean`.
-/

namespace JrlQp

open Classical

/-- `hasFiniteElements`, benchmarks/problemAdaptors.cpp:12-15: some element is larger than `-∞`, and some element (the same or
another) is smaller than `+∞`; true for an empty vector. -/
def hasFiniteElements (v : Vx EReal) : Prop := v.size = 0 ∨ ((∃ i < v.size, ⊥ < v.at' i) ∧ ∃ i < v.size, v.at' i < ⊤)

/-- `me`, benchmarks/problemAdaptors.cpp:18-24. -/
def SepQp.me (pb : SepQp) : Nat := if pb.cstr.tr then pb.cstr.E.cols else pb.cstr.E.rows

/-- `mi`, benchmarks/problemAdaptors.cpp:27-33. -/
def SepQp.mi (pb : SepQp) : Nat := if pb.cstr.tr then pb.cstr.C.cols else pb.cstr.C.rows

/-- Coefficient `(i, k)` of `M`, or of its transpose. -/
def Mx.rowAt (M : Mx) (tr : Bool) (i k : Nat) : ℝ := if tr then M.at' k i else M.at' i k

/-- `EigenQuadprogPb`, benchmarks/problemAdaptors.h:16-27. -/
structure EigenQuadprogPb where
  Q : Mx
  c : Vx ℝ
  Aeq : Mx
  beq : Vx ℝ
  Aineq : Mx
  bineq : Vx EReal

/-- `EigenQuadprogPb::EigenQuadprogPb(const QPProblem<true> &)`, benchmarks/problemAdaptors.cpp:39-104, for a well formed argument. -/
noncomputable def EigenQuadprogPb.of (pb : SepQp) : EigenQuadprogPb :=
  let nVar := pb.cost.a.size
  let nl := if hasFiniteElements pb.cstr.l then pb.mi else 0
  let nu := if hasFiniteElements pb.cstr.u then pb.mi else 0
  let nxl := if hasFiniteElements pb.cstr.xl then pb.cstr.xl.size else 0
  let nxu := if hasFiniteElements pb.cstr.xu then pb.cstr.xu.size else 0
  let startu := nl
  let startxl := nl + nu
  let startxu := nl + nu + nxl
  { Q := pb.cost.G
    c := pb.cost.a
    Aeq := ⟨pb.me, nVar, pb.cstr.E.rowAt pb.cstr.tr⟩
    beq := pb.cstr.f
    Aineq := ⟨nl + nu + nxl + nxu, nVar, fun r k =>
      if r < startu then -pb.cstr.C.rowAt pb.cstr.tr r k
      else if r < startxl then pb.cstr.C.rowAt pb.cstr.tr (r - startu) k
      else if r < startxu then (if k = r - startxl then -1 else 0)
      else (if k = r - startxu then 1 else 0)⟩
    bineq := ⟨nl + nu + nxl + nxu, fun r =>
      if r < startu then -pb.cstr.l.at' r
      else if r < startxl then pb.cstr.u.at' (r - startu)
      else if r < startxu then -pb.cstr.xl.at' (r - startxl)
      else pb.cstr.xu.at' (r - startxu)⟩ }

/-- `LssolPb`, benchmarks/problemAdaptors.h:42-52. -/
structure LssolPb where
  Q : Mx
  p : Vx ℝ
  C : Mx
  l : Vx EReal
  u : Vx EReal

/-- `LssolPb::LssolPb(const QPProblem<true> &)`, benchmarks/problemAdaptors.cpp:106-146. -/
noncomputable def LssolPb.of (pb : SepQp) : LssolPb :=
  let nVar := pb.cost.a.size
  let nEq := pb.me
  let nIneq := pb.mi
  { Q := pb.cost.G
    p := pb.cost.a
    C := ⟨nEq + nIneq, nVar, fun r k => if r < nEq then pb.cstr.E.rowAt pb.cstr.tr r k else pb.cstr.C.rowAt pb.cstr.tr (r - nEq) k⟩
    l := ⟨nVar + nEq + nIneq, fun i =>
      if i < nVar then (if pb.cstr.xl.size ≠ 0 then pb.cstr.xl.at' i else ((-1e30 : ℝ) : EReal))
      else if i < nVar + nEq then (pb.cstr.f.at' (i - nVar) : EReal) else pb.cstr.l.at' (i - (nVar + nEq))⟩
    u := ⟨nVar + nEq + nIneq, fun i =>
      if i < nVar then (if pb.cstr.xl.size ≠ 0 then pb.cstr.xu.at' i else ((1e30 : ℝ) : EReal))
      else if i < nVar + nEq then (pb.cstr.f.at' (i - nVar) : EReal) else pb.cstr.u.at' (i - (nVar + nEq))⟩ }

/-- `QLDPb`, benchmarks/problemAdaptors.h:54-65. -/
structure QLDPb where
  Q : Mx
  c : Vx ℝ
  A : Mx
  b : Vx EReal
  xl : Vx EReal
  xu : Vx EReal

/-- `QLDPb::QLDPb(const QPProblem<true> &)`, benchmarks/problemAdaptors.cpp:148-203. -/
noncomputable def QLDPb.of (pb : SepQp) : QLDPb :=
  let nVar := pb.cost.a.size
  let nEq := pb.me
  let nl := if hasFiniteElements pb.cstr.l then pb.mi else 0
  let nu := if hasFiniteElements pb.cstr.u then pb.mi else 0
  let startl := nEq
  let startu := nEq + nl
  { Q := pb.cost.G
    c := pb.cost.a
    A := ⟨nEq + nl + nu, nVar, fun r k =>
      if r < startl then pb.cstr.E.rowAt pb.cstr.tr r k
      else if r < startu then pb.cstr.C.rowAt pb.cstr.tr (r - startl) k
      else -pb.cstr.C.rowAt pb.cstr.tr (r - startu) k⟩
    b := ⟨nEq + nl + nu, fun r =>
      if r < startl then ((-pb.cstr.f.at' r : ℝ) : EReal)
      else if r < startu then -pb.cstr.l.at' (r - startl)
      else pb.cstr.u.at' (r - startu)⟩
    xl := if pb.cstr.xl.size ≠ 0 then pb.cstr.xl else ⟨nVar, fun _ => ⊥⟩
    xu := if pb.cstr.xu.size ≠ 0 then pb.cstr.xu else ⟨nVar, fun _ => ⊤⟩ }

/-- `EiQuadprogPb`, benchmarks/problemAdaptors.h:29-40. -/
structure EiQuadprogPb where
  G : Mx
  g0 : Vx ℝ
  CE : Mx
  ce0 : Vx ℝ
  CI : Mx
  ci0 : Vx EReal

/-- `EiQuadprogPb::EiQuadprogPb(const QPProblem<true> &)`, benchmarks/problemAdaptors.cpp:205-214. -/
noncomputable def EiQuadprogPb.of (pb : SepQp) : EiQuadprogPb :=
  let tmp := EigenQuadprogPb.of pb
  { G := tmp.Q
    g0 := tmp.c
    CE := ⟨tmp.Aeq.cols, tmp.Aeq.rows, fun k r => tmp.Aeq.at' r k⟩
    ce0 := ⟨tmp.beq.size, fun r => -tmp.beq.at' r⟩
    CI := ⟨tmp.Aineq.cols, tmp.Aineq.rows, fun k r => -tmp.Aineq.at' r k⟩
    ci0 := tmp.bineq }

/-- `GIPb::GIPb(const QPProblem<true> &)`, benchmarks/problemAdaptors.cpp:216-219: the conversion to `QPProblem<>`, then a transposition
in place if needed; `transposedMat` is left as it was. -/
noncomputable def GIPb.of (pb : SepQp) : Qp :=
  let q := Qp.ofSepQp pb
  if q.cstr.tr then q
  else { q with cstr := { q.cstr with C := ⟨q.cstr.C.cols, q.cstr.C.rows, fun i j => q.cstr.C.at' j i⟩ } }

/-- The arguments `(qp.G, qp.a, qp.C, qp.l, qp.u, qp.xl, qp.xu)` of `solve`, benchmarks/Solvers.cpp:196, 517, as the problem of the model of
the solver: `C` is `nVar × nbCstr`, there are bounds when `xl` is not empty. -/
def Qp.args (q : Qp) : Pb ℝ EReal where
  n := q.cost.G.rows
  m := q.cstr.C.cols
  useBnd := decide (q.cstr.xl.size ≠ 0)
  G := q.cost.G.at'
  a := q.cost.a.at'
  C := q.cstr.C.at'
  bl := q.cstr.l.at'
  bu := q.cstr.u.at'
  xl := q.cstr.xl.at'
  xu := q.cstr.xu.at'

end JrlQp
