import Verif.StructSafe
import Mathlib.Data.Int.Log

/-!
# IEEE-754 binary floating-point numbers

The scalar type of the code is `double`. This file defines the IEEE-754 binary formats (precision `p`, gradual underflow
down to `2^emin`, exponents up to `emax`), with signed zeros, infinities and NaN, and the operations `+ - * / sqrt`, rounded
to nearest, ties to even, and the comparisons, as a `NumOps` instance. All NaN are identified (payloads are not observable by the
code). The theorems `rnd_nearest`, `rnd_rep` and `rne_tie` show that `rnd` is the rounding of the standard.
-/

namespace JrlQp
namespace Ieee

/-- A binary format, and an order of the additions (the theorems hold for all of them). -/
structure Fmt where
  /-- number of bits of the significand, hidden bit included -/
  p : ℕ
  /-- exponent of the smallest positive (subnormal) number -/
  emin : ℤ
  /-- largest exponent -/
  emax : ℤ
  hp : 1 ≤ p
  hmin : emin ≤ -1
  hmax : 0 ≤ emax
  /-- order of the additions chosen by Eigen at each place -/
  order : Site → ℕ → SumTree
  order_perm : ∀ s n, (order s n).leaves.Perm (List.range n)
  /-- order of the subtractions chosen by Eigen at each place -/
  orderSub : Site → ℕ → List SumTree
  orderSub_perm : ∀ s n, ((orderSub s n).flatMap SumTree.leaves).Perm (List.range n)

/-- `double`, terms added from the left. -/
def binary64 : Fmt :=
  ⟨53, -1074, 1023, by norm_num, by norm_num, by norm_num, fun _ n => .left n, fun _ n => by rw [SumTree.leaves_left],
    fun _ n => [.left n], fun _ n => by simp [SumTree.leaves_left]⟩

/-- `float`, terms added from the left. -/
def binary32 : Fmt :=
  ⟨24, -149, 127, by norm_num, by norm_num, by norm_num, fun _ n => .left n, fun _ n => by rw [SumTree.leaves_left],
    fun _ n => [.left n], fun _ n => by simp [SumTree.leaves_left]⟩

variable (F : Fmt)

/-- `x` is a non-negative number with a significand of `p` bits and an exponent at least `emin` (no upper limit). -/
def Rep (x : ℝ) : Prop := ∃ (m : ℕ) (e : ℤ), m < 2 ^ F.p ∧ F.emin ≤ e ∧ x = m * (2 : ℝ) ^ e

/-- Nearest integer, ties to even. -/
noncomputable def rne (y : ℝ) : ℤ :=
  if Int.fract y < 1 / 2 then ⌊y⌋ else if 1 / 2 < Int.fract y then ⌊y⌋ + 1 else if Even ⌊y⌋ then ⌊y⌋ else ⌊y⌋ + 1

/-- Exponent of the last bit of the significand for a magnitude `x`. -/
noncomputable def ulpExp (x : ℝ) : ℤ := max F.emin (Int.log 2 x - (F.p - 1))

/-- Rounding of a non-negative number with unbounded exponents upwards. -/
noncomputable def rnd (x : ℝ) : ℝ := rne (x / 2 ^ ulpExp F x) * 2 ^ ulpExp F x

/-! ## Rounding to nearest -/

theorem rne_dist (y : ℝ) (k : ℤ) : |(rne y : ℝ) - y| ≤ |(k : ℝ) - y| := by
  have h1 := Int.fract_add_floor y
  have h2 := Int.fract_nonneg y
  have h3 := Int.fract_lt_one y
  have hk : (k : ℝ) ≤ ⌊y⌋ ∨ ((⌊y⌋ : ℝ) + 1 ≤ k) := by
    rcases le_or_gt k ⌊y⌋ with h | h
    · exact Or.inl (by exact_mod_cast h)
    · exact Or.inr (by exact_mod_cast h)
  have a1 : |(⌊y⌋ : ℝ) - y| = Int.fract y := by rw [abs_sub_comm, abs_of_nonneg (by linarith)]; linarith
  have a2 : |((⌊y⌋ + 1 : ℤ) : ℝ) - y| = 1 - Int.fract y := by push_cast; rw [abs_of_nonneg (by linarith)]; linarith
  have a3 : Int.fract y ≤ |(k : ℝ) - y| ∨ 1 - Int.fract y ≤ |(k : ℝ) - y| := by
    rcases hk with h | h
    · left; rw [abs_sub_comm]; exact le_trans (by linarith) (le_abs_self _)
    · right; exact le_trans (by linarith) (le_abs_self _)
  unfold rne
  split_ifs with b1 b2 b3
  · rw [a1]; rcases a3 with h | h <;> linarith
  · rw [a2]; rcases a3 with h | h <;> linarith
  · rw [a1]; rcases a3 with h | h <;> linarith
  · rw [a2]; rcases a3 with h | h <;> linarith

theorem rne_half (y : ℝ) : |(rne y : ℝ) - y| ≤ 1 / 2 := by
  have := rne_dist y (round y)
  exact this.trans (by rw [abs_sub_comm]; exact abs_sub_round y)

theorem rne_nonneg {y : ℝ} (h : 0 ≤ y) : 0 ≤ rne y := by
  have h1 : 0 ≤ ⌊y⌋ := Int.floor_nonneg.2 h
  unfold rne
  split_ifs <;> omega

theorem rne_int (k : ℤ) : rne (k : ℝ) = k := by
  have := rne_dist (k : ℝ) k
  simp only [sub_self, abs_zero] at this
  have h := abs_nonpos_iff.1 this
  have : (rne (k : ℝ) : ℝ) = k := by linarith
  exact_mod_cast this

/-- Ties go to the even neighbour. -/
theorem rne_tie (k : ℤ) : Even (rne ((k : ℝ) + 1 / 2)) := by
  have hf : ⌊(k : ℝ) + 1 / 2⌋ = k := by rw [Int.floor_eq_iff]; constructor <;> linarith
  have hr : Int.fract ((k : ℝ) + 1 / 2) = 1 / 2 := by unfold Int.fract; rw [hf]; ring
  unfold rne
  rw [hf, hr, if_neg (by norm_num), if_neg (by norm_num)]
  split_ifs with h
  · exact h
  · exact (Int.not_even_iff_odd.1 h).add_one

variable {F}

theorem two_zpow_pos (e : ℤ) : (0 : ℝ) < 2 ^ e := zpow_pos (by norm_num) e

theorem rnd_nonneg {x : ℝ} (h : 0 ≤ x) : 0 ≤ rnd F x := by
  unfold rnd
  have h1 := two_zpow_pos (ulpExp F x)
  have : (0 : ℝ) ≤ rne (x / 2 ^ ulpExp F x) := by exact_mod_cast rne_nonneg (div_nonneg h h1.le)
  positivity

theorem rnd_dist (x : ℝ) (k : ℤ) : |rnd F x - x| ≤ |k * 2 ^ ulpExp F x - x| := by
  have h1 := two_zpow_pos (ulpExp F x)
  have h := rne_dist (x / 2 ^ ulpExp F x) k
  have e : ∀ a : ℝ, |a * 2 ^ ulpExp F x - x| = |a - x / 2 ^ ulpExp F x| * 2 ^ ulpExp F x := by
    intro a
    rw [← abs_of_pos h1, ← abs_mul, abs_of_pos h1, sub_mul, div_mul_cancel₀ _ h1.ne']
  unfold rnd
  rw [e, e]
  exact mul_le_mul_of_nonneg_right h h1.le

theorem rnd_half (x : ℝ) : |rnd F x - x| ≤ 2 ^ ulpExp F x / 2 := by
  have h1 := two_zpow_pos (ulpExp F x)
  have h := rne_half (x / 2 ^ ulpExp F x)
  have e : |rnd F x - x| = |(rne (x / 2 ^ ulpExp F x) : ℝ) - x / 2 ^ ulpExp F x| * 2 ^ ulpExp F x := by
    unfold rnd
    rw [← abs_of_pos h1, ← abs_mul, abs_of_pos h1, sub_mul, div_mul_cancel₀ _ h1.ne']
  rw [e]
  nlinarith

/-- A representable number is a multiple of the last bit of `x`, or is smaller than the power of two below `x`. -/
theorem rep_grid {x y : ℝ} (hx : 0 < x) (hy : Rep F y) :
    (∃ k : ℤ, y = k * 2 ^ ulpExp F x) ∨ (y ≤ 2 ^ Int.log 2 x ∧ ∃ k : ℤ, (2 : ℝ) ^ Int.log 2 x = k * 2 ^ ulpExp F x) := by
  obtain ⟨m, e, hm, he, rfl⟩ := hy
  rcases le_or_gt (ulpExp F x) e with h | h
  · left
    obtain ⟨d, hd⟩ := Int.eq_ofNat_of_zero_le (sub_nonneg.2 h)
    refine ⟨m * 2 ^ d, ?_⟩
    have : e = d + ulpExp F x := by omega
    rw [this, zpow_add₀ (by norm_num)]
    push_cast
    rw [zpow_natCast]; ring
  · right
    have h2 : ulpExp F x = Int.log 2 x - (F.p - 1) := by
      unfold ulpExp at h ⊢
      rcases max_choice F.emin (Int.log 2 x - (F.p - 1)) with h' | h'
      · rw [h'] at h; omega
      · exact h'
    constructor
    · have h3 : (m : ℝ) ≤ 2 ^ (F.p : ℤ) := by rw [zpow_natCast]; exact_mod_cast hm.le
      have h4 : (2 : ℝ) ^ e ≤ 2 ^ (Int.log 2 x - F.p) := zpow_le_zpow_right₀ (by norm_num) (by omega)
      calc (m : ℝ) * 2 ^ e ≤ 2 ^ (F.p : ℤ) * 2 ^ (Int.log 2 x - F.p) := by
            apply mul_le_mul h3 h4 (two_zpow_pos _).le (two_zpow_pos _).le
        _ = 2 ^ Int.log 2 x := by rw [← zpow_add₀ (by norm_num)]; congr 1; ring
    · refine ⟨2 ^ (F.p - 1), ?_⟩
      have hp := F.hp
      push_cast
      rw [h2, ← zpow_natCast, ← zpow_add₀ (by norm_num)]
      congr 1
      omega

theorem log_le {x : ℝ} (hx : 0 < x) : (2 : ℝ) ^ Int.log 2 x ≤ x := by
  have := Int.zpow_log_le_self (b := 2) (r := x) (by norm_num) hx
  exact_mod_cast this

theorem lt_log {x : ℝ} : x < (2 : ℝ) ^ (Int.log 2 x + 1) := by
  have := Int.lt_zpow_succ_log_self (b := 2) (by norm_num) x
  exact_mod_cast this

theorem rnd_zero : rnd F 0 = 0 := by
  unfold rnd
  have := rne_int 0
  simp only [Int.cast_zero] at this
  rw [zero_div, this]
  simp

/-- **The rounded value is a nearest representable number.** -/
theorem rnd_nearest {x y : ℝ} (hx : 0 ≤ x) (hy : Rep F y) : |rnd F x - x| ≤ |y - x| := by
  rcases hx.eq_or_lt with rfl | hx
  · rw [rnd_zero]; simp
  rcases rep_grid hx hy with ⟨k, hk⟩ | ⟨h1, k, hk⟩
  · rw [hk]; exact rnd_dist x k
  · have := rnd_dist (F := F) x k
    rw [← hk] at this
    refine this.trans ?_
    have h2 := log_le hx
    rw [abs_sub_comm, abs_of_nonneg (by linarith), abs_sub_comm]
    exact le_trans (by linarith) (le_abs_self _)

theorem rnd_exact {x : ℝ} (hx : 0 ≤ x) (hr : Rep F x) : rnd F x = x := by
  have := rnd_nearest (F := F) hx hr
  simp only [sub_self, abs_zero] at this
  have h := abs_nonpos_iff.1 this
  linarith

/-- **The rounded value is representable.** -/
theorem rnd_rep {x : ℝ} (hx : 0 ≤ x) : Rep F (rnd F x) := by
  have hp := F.hp
  rcases hx.eq_or_lt with rfl | hx
  · rw [rnd_zero]; exact ⟨0, F.emin, by positivity, le_refl _, by simp⟩
  have hn := rne_nonneg (div_nonneg hx.le (two_zpow_pos (ulpExp F x)).le)
  obtain ⟨k, hk⟩ := Int.eq_ofNat_of_zero_le hn
  have hle : k ≤ 2 ^ F.p := by
    have h1 : x / 2 ^ ulpExp F x ≤ 2 ^ (F.p : ℤ) := by
      rw [div_le_iff₀ (two_zpow_pos _), ← zpow_add₀ (by norm_num)]
      refine (lt_log (x := x)).le.trans (zpow_le_zpow_right₀ (by norm_num) ?_)
      have := le_max_right F.emin (Int.log 2 x - (F.p - 1))
      unfold ulpExp
      omega
    have h2 := rne_half (x / 2 ^ ulpExp F x)
    rw [hk] at h2
    have h3 := (abs_le.1 h2).2
    have h4 : ((k : ℤ) : ℝ) ≤ 2 ^ (F.p : ℤ) + 1 / 2 := by linarith
    rw [zpow_natCast] at h4
    by_contra hc
    have h5 : 2 ^ F.p + 1 ≤ k := by omega
    have h6 : ((2 : ℝ) ^ F.p + 1) ≤ k := by exact_mod_cast h5
    push_cast at h4
    linarith
  have he : F.emin ≤ ulpExp F x := le_max_left _ _
  unfold rnd
  rw [hk]
  rcases hle.eq_or_lt with h | h
  · refine ⟨2 ^ (F.p - 1), ulpExp F x + 1, Nat.pow_lt_pow_right (by norm_num) (by omega), by omega, ?_⟩
    rw [h, zpow_add₀ (by norm_num)]
    push_cast
    rw [zpow_one]
    have : (2 : ℝ) ^ F.p = 2 ^ (F.p - 1) * 2 := by rw [← pow_succ]; congr 1; omega
    rw [this]; ring
  · exact ⟨k, ulpExp F x, h, he, by push_cast; ring⟩

/-- Relative and absolute rounding errors. -/
theorem rnd_error {x : ℝ} (hx : 0 ≤ x) : |rnd F x - x| ≤ 2 ^ (-(F.p : ℤ)) * x + 2 ^ (F.emin - 1) := by
  have h := rnd_half (F := F) x
  rcases hx.eq_or_lt with rfl | hx
  · rw [rnd_zero]; simp only [sub_zero, abs_zero, mul_zero, zero_add]; exact (two_zpow_pos _).le
  have h0 := two_zpow_pos (F.emin - 1)
  have h1 : (2 : ℝ) ^ ulpExp F x / 2 = 2 ^ (ulpExp F x - 1) := by rw [zpow_sub₀ (by norm_num), zpow_one]
  rw [h1] at h
  rcases max_choice F.emin (Int.log 2 x - (F.p - 1)) with h' | h'
  · have : ulpExp F x = F.emin := h'
    rw [this] at h
    have := two_zpow_pos (-(F.p : ℤ))
    nlinarith
  · have h2 : ulpExp F x - 1 = -(F.p : ℤ) + Int.log 2 x := by unfold ulpExp; rw [h']; ring
    rw [h2, zpow_add₀ (by norm_num)] at h
    have := two_zpow_pos (-(F.p : ℤ))
    have := mul_le_mul_of_nonneg_left (log_le hx) this.le
    linarith

/-- Multiples of the smallest positive number are rounded with a relative error only. -/
theorem rnd_error_grid {x : ℝ} (hx : 0 ≤ x) (k : ℤ) (hk : x = k * 2 ^ F.emin) : |rnd F x - x| ≤ 2 ^ (-(F.p : ℤ)) * x := by
  rcases hx.eq_or_lt with rfl | hx
  · rw [rnd_zero]; simp
  have hq := two_zpow_pos (-(F.p : ℤ))
  rcases max_choice F.emin (Int.log 2 x - (F.p - 1)) with h' | h'
  · have : ulpExp F x = F.emin := h'
    have h := rnd_dist (F := F) x k
    rw [this, ← hk] at h
    simp only [sub_self, abs_zero] at h
    exact h.trans (by positivity)
  · have h := rnd_half (F := F) x
    have h1 : (2 : ℝ) ^ ulpExp F x / 2 = 2 ^ (ulpExp F x - 1) := by rw [zpow_sub₀ (by norm_num), zpow_one]
    have h2 : ulpExp F x - 1 = -(F.p : ℤ) + Int.log 2 x := by unfold ulpExp; rw [h']; ring
    rw [h1, h2, zpow_add₀ (by norm_num)] at h
    have := mul_le_mul_of_nonneg_left (log_le hx) hq.le
    linarith

theorem rep_multiple {x : ℝ} (h : Rep F x) : ∃ k : ℤ, x = k * 2 ^ F.emin := by
  obtain ⟨m, e, _, he, rfl⟩ := h
  obtain ⟨d, hd⟩ := Int.eq_ofNat_of_zero_le (sub_nonneg.2 he)
  refine ⟨m * 2 ^ d, ?_⟩
  have : e = d + F.emin := by omega
  rw [this, zpow_add₀ (by norm_num)]
  push_cast
  rw [zpow_natCast]; ring

theorem rnd_pos_grid {x : ℝ} (hx : 0 < x) (k : ℤ) (hk : x = k * 2 ^ F.emin) : 0 < rnd F x := by
  have h := rnd_error_grid hx.le k hk
  have h1 := (abs_le.1 h).1
  have h2 : (2 : ℝ) ^ (-(F.p : ℤ)) ≤ 2 ^ (-1 : ℤ) := zpow_le_zpow_right₀ (by norm_num) (by have := F.hp; omega)
  have h3 : (2 : ℝ) ^ (-1 : ℤ) = 1 / 2 := by norm_num
  rw [h3] at h2
  nlinarith

/-! ## Numbers -/

variable (F)

/-- The finite magnitudes of the format. -/
abbrev Mag : Type := { x : ℝ // Rep F x ∧ x < 2 ^ (F.emax + 1) }

/-- The numbers of the format; `true` is the minus sign. -/
inductive Fl
  | nan
  | inf (neg : Bool)
  | fin (neg : Bool) (m : Mag F)

variable {F}

theorem rep_zero : Rep F 0 := ⟨0, F.emin, by positivity, le_refl _, by simp⟩

theorem rep_one : Rep F 1 :=
  ⟨1, 0, Nat.one_lt_two_pow (by have := F.hp; omega), by have := F.hmin; omega, by simp⟩

theorem rep_half : Rep F (1 / 2) :=
  ⟨1, -1, Nat.one_lt_two_pow (by have := F.hp; omega), F.hmin, by norm_num⟩

theorem one_lt_max : (1 : ℝ) < 2 ^ (F.emax + 1) := by
  have : (2 : ℝ) ^ (1 : ℤ) ≤ 2 ^ (F.emax + 1) := zpow_le_zpow_right₀ (by norm_num) (by have := F.hmax; omega)
  rw [zpow_one] at this
  linarith

/-- The magnitude of a zero. -/
def m0 : Mag F := ⟨0, rep_zero, lt_trans one_pos one_lt_max⟩

open Classical in
/-- Rounding of a real number; `z` is the sign given to an exact zero. Overflow gives an infinity. -/
noncomputable def ofReal (z : Bool) (x : ℝ) : Fl F :=
  if h : rnd F |x| < 2 ^ (F.emax + 1) then .fin (if x = 0 then z else decide (x < 0)) ⟨rnd F |x|, rnd_rep (abs_nonneg x), h⟩
  else .inf (if x = 0 then z else decide (x < 0))

namespace Fl

/-- Value of a finite number. -/
def val : Fl F → ℝ
  | fin false m => m.1
  | fin true m => -m.1
  | _ => 0

/-- Value as a comparison sees it; none for NaN. -/
noncomputable def ext : Fl F → Option EReal
  | nan => none
  | inf false => some ⊤
  | inf true => some ⊥
  | fin false m => some (m.1 : ℝ)
  | fin true m => some ((-m.1 : ℝ) : EReal)

/-- Finite, i.e. neither NaN nor an infinity. -/
def Finite : Fl F → Prop
  | fin _ _ => True
  | _ => False

/-- `-a` -/
def neg : Fl F → Fl F
  | nan => nan
  | inf s => inf (!s)
  | fin s m => fin (!s) m

/-- `a + b`: the exact sum is rounded; an exact zero is positive unless both operands are negative zeros. -/
noncomputable def add : Fl F → Fl F → Fl F
  | nan, _ => nan
  | _, nan => nan
  | inf s, inf t => if s = t then inf s else nan
  | inf s, fin _ _ => inf s
  | fin _ _, inf t => inf t
  | fin s m, fin t k => ofReal (s && t) (val (fin s m) + val (fin t k))

/-- `a * b` -/
noncomputable def mul : Fl F → Fl F → Fl F
  | nan, _ => nan
  | _, nan => nan
  | inf s, inf t => inf (xor s t)
  | inf s, fin t k => open Classical in if k.1 = 0 then nan else inf (xor s t)
  | fin s m, inf t => open Classical in if m.1 = 0 then nan else inf (xor s t)
  | fin s m, fin t k => ofReal (xor s t) (val (fin s m) * val (fin t k))

/-- `a / b` -/
noncomputable def div : Fl F → Fl F → Fl F
  | nan, _ => nan
  | _, nan => nan
  | inf _, inf _ => nan
  | inf s, fin t _ => inf (xor s t)
  | fin s _, inf t => fin (xor s t) m0
  | fin s m, fin t k => open Classical in
    if k.1 = 0 then (if m.1 = 0 then nan else inf (xor s t)) else ofReal (xor s t) (val (fin s m) / val (fin t k))

/-- `std::sqrt` -/
noncomputable def sqrt : Fl F → Fl F
  | nan => nan
  | inf false => inf false
  | inf true => nan
  | fin false m => ofReal false (Real.sqrt m.1)
  | fin true m => open Classical in if m.1 = 0 then fin true m else nan

/-- `std::abs` -/
def abs : Fl F → Fl F
  | nan => nan
  | inf _ => inf false
  | fin _ m => fin false m

open Classical in
/-- `a < b` -/
noncomputable def lt (a b : Fl F) : Bool :=
  match a.ext, b.ext with
  | some x, some y => decide (x < y)
  | _, _ => false

open Classical in
/-- `a <= b` -/
noncomputable def le (a b : Fl F) : Bool :=
  match a.ext, b.ext with
  | some x, some y => decide (x ≤ y)
  | _, _ => false

open Classical in
/-- `a == b` -/
noncomputable def eq (a b : Fl F) : Bool :=
  match a.ext, b.ext with
  | some x, some y => decide (x = y)
  | _, _ => false

end Fl

instance : Zero (Fl F) := ⟨.fin false m0⟩
instance : One (Fl F) := ⟨.fin false ⟨1, rep_one, one_lt_max⟩⟩
noncomputable instance : Add (Fl F) := ⟨Fl.add⟩
noncomputable instance : Sub (Fl F) := ⟨fun a b => Fl.add a (Fl.neg b)⟩
instance : Neg (Fl F) := ⟨Fl.neg⟩
noncomputable instance : Mul (Fl F) := ⟨Fl.mul⟩
noncomputable instance : Div (Fl F) := ⟨Fl.div⟩

/-- The scalar operations of the code in IEEE arithmetic. -/
noncomputable instance : NumOps (Fl F) (Fl F) where
  ltb := Fl.lt
  leb := Fl.le
  eqb := Fl.eq
  sqrt := Fl.sqrt
  abs := Fl.abs
  half := .fin false ⟨1 / 2, rep_half, lt_trans (by norm_num) one_lt_max⟩
  bEq := Fl.eq
  bLt := Fl.lt
  bZero := 0
  slackLow a b := a - b
  slackUp b a := b - a
  toK a := a
  ofK a := a

/-- Sums are evaluated in the order that comes with the format. -/
noncomputable instance : SumOps (Fl F) where
  esum s f n := (F.order s n).eval f
  esub s y f n := (F.orderSub s n).foldl (fun acc t => acc - t.eval f) y
  esum_tree s n := ⟨_, F.order_perm s n, fun _ => rfl⟩
  esub_tree s n := ⟨_, F.orderSub_perm s n, fun _ _ => rfl⟩

/-! ## The laws assumed by the generic theorems -/

theorem ofReal_zero (z : Bool) : (ofReal z 0 : Fl F) = .fin z m0 := by
  unfold ofReal
  have h : rnd F |(0 : ℝ)| = 0 := by rw [abs_zero, rnd_zero]
  rw [dif_pos (by rw [h]; exact (two_zpow_pos _))]
  simp only [if_true]
  congr 1
  exact Subtype.ext h

/-- `0`, `-0` or NaN. -/
def Nul (a : Fl F) : Prop := a = .nan ∨ ∃ s, a = .fin s m0

theorem val_zero (s : Bool) : (Fl.fin s m0 : Fl F).val = 0 := by
  cases s
  · rfl
  · show -(0 : ℝ) = 0; simp

theorem nul_ofReal {z : Bool} {x : ℝ} (h : x = 0) : Nul (ofReal z x : Fl F) := by
  subst h; exact Or.inr ⟨z, ofReal_zero z⟩

theorem Nul.neg {a : Fl F} (h : Nul a) : Nul (Fl.neg a) := by
  rcases h with rfl | ⟨s, rfl⟩
  · exact Or.inl rfl
  · exact Or.inr ⟨!s, rfl⟩

theorem Nul.add {a b : Fl F} (ha : Nul a) (hb : Nul b) : Nul (Fl.add a b) := by
  rcases ha with rfl | ⟨s, rfl⟩
  · exact Or.inl (by cases b <;> rfl)
  rcases hb with rfl | ⟨t, rfl⟩
  · exact Or.inl rfl
  · exact nul_ofReal (by rw [val_zero, val_zero, add_zero])

theorem Nul.mul (c : Fl F) {a : Fl F} (ha : Nul a) : Nul (Fl.mul c a) ∧ Nul (Fl.mul a c) ∧ Nul (Fl.div a c) := by
  have k0 : (m0 : Mag F).1 = 0 := rfl
  rcases ha with rfl | ⟨s, rfl⟩
  · exact ⟨Or.inl (by cases c <;> rfl), Or.inl (by cases c <;> rfl), Or.inl (by cases c <;> rfl)⟩
  · cases c with
    | nan => exact ⟨Or.inl rfl, Or.inl rfl, Or.inl rfl⟩
    | inf t =>
      exact ⟨Or.inl (by simp [Fl.mul, k0]), Or.inl (by simp [Fl.mul, k0]), Or.inr ⟨xor s t, rfl⟩⟩
    | fin t k =>
      refine ⟨nul_ofReal (by rw [val_zero, mul_zero]), nul_ofReal (by rw [val_zero, zero_mul]), ?_⟩
      unfold Fl.div
      simp only [k0, if_true]
      split_ifs with h
      · exact Or.inl rfl
      · exact nul_ofReal (by rw [val_zero, zero_div])

theorem Nul.sqrt {a : Fl F} (ha : Nul a) : Nul (Fl.sqrt a) := by
  have k0 : (m0 : Mag F).1 = 0 := rfl
  rcases ha with rfl | ⟨s, rfl⟩
  · exact Or.inl rfl
  · cases s
    · exact nul_ofReal (by rw [k0, Real.sqrt_zero])
    · right; exact ⟨true, by simp [Fl.sqrt, k0]⟩

theorem Nul.lt {t a : Fl F} (ht : Fl.lt t 0 = false) (ha : Nul a) : Fl.lt t a = false := by
  rcases ha with rfl | ⟨s, rfl⟩
  · unfold Fl.lt; cases t.ext <;> rfl
  · have : (Fl.fin s m0 : Fl F).ext = (0 : Fl F).ext := by
      cases s
      · rfl
      · show some ((-(0 : ℝ) : ℝ) : EReal) = some ((0 : ℝ) : EReal); rw [neg_zero]
    unfold Fl.lt at ht ⊢
    rw [this]; exact ht

/-- The options the theorems need: `bigBnd` is not NaN and the threshold is not negative. -/
structure OptOk (o : Opts (Fl F)) : Prop where
  big : o.bigBnd ≠ .nan
  tiny : Fl.lt o.tiny 0 = false

theorem le_refl' {a : Fl F} (h : a ≠ .nan) : Fl.le a a = true := by
  cases a with
  | nan => exact absurd rfl h
  | inf s => cases s <;> simp [Fl.le, Fl.ext]
  | fin s m => cases s <;> simp [Fl.le, Fl.ext]

theorem fpLaws {o : Opts (Fl F)} (h : OptOk o) : FpLaws (Fl F) o where
  bigRefl := le_refl' h.big
  ltEq := by
    intro a b hab
    change Fl.lt a b = true at hab
    show Fl.eq a a = true
    unfold Fl.lt at hab
    unfold Fl.eq
    cases ha : a.ext with
    | none => rw [ha] at hab; simp at hab
    | some x => simp
  zeroMul := by
    show ofReal _ _ = Fl.fin false m0
    rw [val_zero, mul_zero]; exact ofReal_zero false
  zeroAdd := by
    show ofReal _ _ = Fl.fin false m0
    rw [val_zero, add_zero]; exact ofReal_zero false
  sqrtZero := Nul.lt h.tiny (Nul.sqrt (Or.inr ⟨false, rfl⟩))

theorem nulLaws {o : Opts (Fl F)} (h : OptOk o) : NulLaws o (Nul (F := F)) where
  zero := Or.inr ⟨false, rfl⟩
  add := Nul.add
  sub := fun ha hb => Nul.add ha (Nul.neg hb)
  mul := fun c _ ha => (Nul.mul c ha).1
  mul' := fun c _ ha => (Nul.mul c ha).2.1
  div := fun c _ ha => (Nul.mul c ha).2.2
  sqrt := Nul.sqrt
  tiny := Nul.lt h.tiny

end Ieee
end JrlQp
