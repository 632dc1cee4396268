import Verif.Solver

/-!
# `BoxAndSingleConstraintSolver`

Model of `src/experimental/BoxAndSingleConstraintSolver.cpp`: a specialised solver for
`min ½‖x - x0‖²  s.t.  c'x ≥ bl, xl ≤ x ≤ xu`. Its class derives from `jrl::qp::GoldfarbIdnaniSolver` and overrides
`init_` only, so the main loop and the memory management are those of `Verif.Solver`.
-/

namespace JrlQp

open NumOps

variable {K B : Type} [Zero K] [One K] [Add K] [Sub K] [Neg K] [Mul K] [Div K] [NumOps K B] [SumOps K]

/-- The problem data bound by `BoxAndSingleConstraintSolver::solve`,
src/experimental/BoxAndSingleConstraintSolver.cpp:11-40: `pb_.a` refers to `x0` (and not `-x0`), `inf` is
`std::numeric_limits<double>::infinity()`. `pb_.G` keeps what it referred to before (never read by this solver): 0 here.
The asserts on sizes are true by construction. -/
def boxPb (n : Nat) (x0 c : Nat → K) (bl inf : B) (xl xu : Nat → B) : Pb K B where
  n := n
  m := 1
  useBnd := decide (0 < n)
  G := fun _ _ => 0
  a := x0
  C := fun i _ => c i
  bl := fun _ => bl
  bu := fun _ => inf
  xl := xl
  xu := xu

/-- `R(q, q) = d; R.col(q).head(q).setZero();`
src/experimental/BoxAndSingleConstraintSolver.cpp:69-70, 80-81. -/
def boxCol (R : Nat → Nat → K) (q : Nat) (d : K) : Nat → Nat → K := fun r c =>
  if c = q ∧ r = q then d else if c = q ∧ r < q then 0 else R r c

/-- One turn of the loop of `init_`, src/experimental/BoxAndSingleConstraintSolver.cpp:62-92. The pair is the state and the
local variable `q`. -/
def boxStep (pb : Pb K B) (sq : State K × Nat) (i : Nat) : State K × Nat :=
  let s := sq.1
  let q := sq.2
  if bLt K (ofK (pb.a i)) (pb.xl i) then
    let v := toK (pb.xl i)
    let w := v - pb.a i
    ({ s with x := upd s.x i v, u := upd s.u q w, f := s.f + half * w * w, R := boxCol s.R q 1, J := upd2 s.J i q 1,
              A := s.A.activate (i + 1) .lowerBound }, q + 1)
  else if bLt K (pb.xu i) (ofK (pb.a i)) then
    let v := toK (pb.xu i)
    let w := pb.a i - v
    ({ s with x := upd s.x i v, u := upd s.u q w, f := s.f + half * w * w, R := boxCol s.R q (-1), J := upd2 s.J i q 1,
              A := s.A.activate (i + 1) .upperBound }, q + 1)
  else ({ s with x := upd s.x i (pb.a i), J := upd2 s.J i (s.nbVar - i + q - 1) 1 }, q)

/-- The state at the beginning of the loop of `init_`, src/experimental/BoxAndSingleConstraintSolver.cpp:48-61. -/
def boxStart (o : Opts K) (s : State K) : State K :=
  { s with A := s.A.reset, R := if o.dbg then fun _ _ => 0 else s.R, f := 0,
           J := fun i j => if i < s.nbVar ∧ j < s.nbVar then 0 else s.J i j }

/-- `BoxAndSingleConstraintSolver::init_`, src/experimental/BoxAndSingleConstraintSolver.cpp:46-95. The matrices are
`n × n`, the vectors have size `n`, and all the accesses are inside them (`q ≤ i < n`), so that the sizes of the workspaces
and of the user's data are all that has to be checked. -/
def boxInit (o : Opts K) (pb : Pb K B) (s : State K) : Except Fault (Term × State K) :=
  if decide (s.nbVar * s.nbVar ≤ s.szJ) && decide (s.nbVar * s.nbVar ≤ s.szRm) && decide (s.nbVar ≤ s.szX) &&
      decide (s.nbVar ≤ s.szU) && decide (s.nbVar ≤ pb.n) then
    .ok (.success, ((List.range s.nbVar).foldl (boxStep pb) (boxStart o s, 0)).1)
  else .error .outOfBounds

/-- `BoxAndSingleConstraintSolver::solve`, src/experimental/BoxAndSingleConstraintSolver.cpp:11-44. -/
def boxSolve (o : Opts K) (n : Nat) (x0 c : Nat → K) (bl inf : B) (xl xu : Nat → B) (s : State K) :
    Except Fault (Term × State K) :=
  let pb := boxPb n x0 c bl inf xl xu
  dualSolve (boxInit o pb) o pb (resize s n 1 (decide (0 < n)))

end JrlQp
