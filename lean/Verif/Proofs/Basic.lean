import Mathlib.Tactic.Ring
import Mathlib.Tactic.Linarith
import Mathlib.Tactic.Positivity
import Mathlib.Tactic.FieldSimp
import Mathlib.Tactic.NormNum
import Mathlib.Algebra.Order.Floor.Ring
import Verif.Spec
/-! Helper lemmas: the fault monad, digit strings, magnitudes. -/
namespace PgNumeric
open Spec

@[simp] theorem pure_ok {α} (a : α) : (pure a : M α) = .ok a := rfl
@[simp] theorem bind_ok {α β} (a : α) (f : α → M β) : ((Except.ok a : M α) >>= f) = f a := rfl
@[simp] theorem bind_err {α β} (e : Fault) (f : α → M β) : ((Except.error e : M α) >>= f) = .error e := rfl
@[simp] theorem throw_err {α} (e : Fault) : (throw e : M α) = .error e := rfl

theorem dassert_ok [Build] {c : Prop} [Decidable c] (h : c) : dassert c = .ok () := by
  simp [dassert, h]

@[simp] theorem dassert_true [Build] [i : Decidable True] : @dassert _ True i = .ok () := dassert_ok trivial

theorem i32_ok [Build] {x : Int} (h : -2147483648 ≤ x) (h' : x ≤ 2147483647) : i32 x = .ok x := by
  simp [i32, h, h']

theorem fits_ok {xs : List Int} (h : ∀ x ∈ xs, -2147483648 ≤ x ∧ x ≤ 2147483647) : fits xs = .ok () := by
  rw [fits, if_pos h]; rfl

theorem fits_iff {xs : List Int} : fits xs = .ok () ↔ ∀ x ∈ xs, -2147483648 ≤ x ∧ x ≤ 2147483647 := by
  refine ⟨fun h => ?_, fits_ok⟩
  by_contra hc
  rw [fits, if_neg hc] at h
  cases h

open Var in
/-- Discharge the side goal of `fits_ok`. -/
macro "fits_tac" : tactic => `(tactic| (
  set_option linter.unusedSimpArgs false in
  simp only [List.forall_mem_cons, List.not_mem_nil, IsEmpty.forall_iff, implies_true, and_true, DEC_DIGITS, MUL_GUARD_DIGITS, DIV_GUARD_DIGITS,
    NUMERIC_MIN_SIG_DIGITS, NUMERIC_MIN_DISPLAY_SCALE, NUMERIC_MAX_DISPLAY_SCALE, Var.ndigits]
  omega))

/-- Rewrite the next check of intermediate results to success. -/
macro "kill_fits" : tactic => `(tactic| (rw [fits_ok]; on_goal 2 => fits_tac))

/-- A working variable whose weight and length are far from the limits of `i32`. -/
structure Small (v : Var) : Prop where
  lo : -100000000 ≤ v.weight
  hi : v.weight ≤ 100000000
  len : (v.digits.length : Int) ≤ 100000000

theorem i16_ok [Build] {x : Int} (h : -32768 ≤ x) (h' : x ≤ 32767) : i16 x = .ok x := by
  simp [i16, h, h']

theorem getM_ok {l : List Int} {i : Nat} (h : i < l.length) : getM l i = .ok l[i] := by
  simp [getM, h]

theorem setM_ok {l : List Int} {i : Nat} {x : Int} (h : i < l.length) : setM l i x = .ok (l.set i x) := by
  simp [setM, h]

theorem sliceM_ok {l : List Int} {i n : Nat} (h : i + n ≤ l.length) :
    sliceM l i n = .ok ((l.drop i).take n) := by
  simp [sliceM, h]

/-! ## Digit lists -/

theorem Spec.Digits.nil : Digits [] := by simp [Digits]
theorem Spec.Digits.cons {d : Int} {ds : List Int} : Digits (d :: ds) ↔ (0 ≤ d ∧ d < 10000) ∧ Digits ds := by
  simp [Digits]
theorem Spec.Digits.append {a b : List Int} : Digits (a ++ b) ↔ Digits a ∧ Digits b := by
  simp only [Digits, List.mem_append]
  exact ⟨fun h => ⟨fun d hd => h d (.inl hd), fun d hd => h d (.inr hd)⟩,
    fun h d hd => hd.elim (h.1 d) (h.2 d)⟩
theorem Spec.Digits.take {a : List Int} (h : Digits a) (n : Nat) : Digits (a.take n) :=
  fun d hd => h d (List.mem_of_mem_take hd)
theorem Spec.Digits.drop {a : List Int} (h : Digits a) (n : Nat) : Digits (a.drop n) :=
  fun d hd => h d (List.mem_of_mem_drop hd)
theorem Spec.Digits.get {a : List Int} (h : Digits a) {n : Nat} (hn : n < a.length) : 0 ≤ a[n] ∧ a[n] < 10000 :=
  h _ (List.getElem_mem hn)
theorem Spec.Digits.replicate (n : Nat) : Digits (List.replicate n 0) := by
  intro d hd
  have := List.eq_of_mem_replicate hd
  omega

/-- Integer value of a digit string. -/
def dval : List Int → Int
  | [] => 0
  | d :: ds => d * 10000 ^ ds.length + dval ds

@[simp] theorem dval_nil : dval [] = 0 := rfl
theorem dval_cons (d : Int) (ds) : dval (d :: ds) = d * 10000 ^ ds.length + dval ds := rfl

theorem dval_append (a b : List Int) : dval (a ++ b) = dval a * 10000 ^ b.length + dval b := by
  induction a with
  | nil => simp
  | cons d ds ih => simp only [List.cons_append, dval_cons, ih, List.length_append, pow_add]; ring

theorem dval_nonneg {ds : List Int} (h : Digits ds) : 0 ≤ dval ds := by
  induction ds with
  | nil => simp
  | cons d ds ih =>
    rw [Digits.cons] at h
    rw [dval_cons]
    have := ih h.2
    have : (0:Int) ≤ d * 10000 ^ ds.length := mul_nonneg h.1.1 (by positivity)
    omega

theorem dval_lt {ds : List Int} (h : Digits ds) : dval ds < 10000 ^ ds.length := by
  induction ds with
  | nil => simp
  | cons d ds ih =>
    rw [Digits.cons] at h
    rw [dval_cons, List.length_cons, pow_succ]
    have h1 := ih h.2
    have : d * 10000 ^ ds.length ≤ 9999 * 10000 ^ ds.length :=
      mul_le_mul_of_nonneg_right (by omega) (by positivity)
    nlinarith

@[simp] theorem dval_replicate (n : Nat) : dval (List.replicate n 0) = 0 := by
  induction n with
  | zero => rfl
  | succ n ih => rw [List.replicate_succ, dval_cons, ih]; simp

@[simp] theorem mag_nil (w : Int) : mag [] w = 0 := rfl
theorem mag_cons (d : Int) (ds : List Int) (w : Int) :
    mag (d :: ds) w = (d : ℚ) * (10000 : ℚ) ^ w + mag ds (w - 1) := rfl

theorem B_ne : (10000 : ℚ) ≠ 0 := by norm_num
theorem B_zpow_pos (w : Int) : (0:ℚ) < 10000 ^ w := zpow_pos (by norm_num) w
theorem T_zpow_pos (w : Int) : (0:ℚ) < 10 ^ w := zpow_pos (by norm_num) w

theorem B_eq_T (w : Int) : (10000 : ℚ) ^ w = 10 ^ (4 * w) := by
  rw [zpow_mul]; norm_num

theorem mag_eq_dval (ds : List Int) (w : Int) :
    mag ds w = (dval ds : ℚ) * (10000 : ℚ) ^ (w + 1 - ds.length) := by
  induction ds generalizing w with
  | nil => simp
  | cons d ds ih =>
    rw [mag_cons, ih, dval_cons]
    push_cast
    have e1 : (w - 1 + 1 - (ds.length : Int)) = w - ds.length := by ring
    have e2 : (w + 1 - ((ds.length : Int) + 1)) = w - ds.length := by ring
    rw [e1, List.length_cons]
    push_cast
    rw [e2, add_mul, mul_assoc, ← zpow_natCast, ← zpow_add₀ B_ne]
    congr 3
    ring_nf

theorem mag_append (a b : List Int) (w : Int) : mag (a ++ b) w = mag a w + mag b (w - a.length) := by
  induction a generalizing w with
  | nil => simp
  | cons d ds ih =>
    rw [List.cons_append, mag_cons, mag_cons, ih]
    have : (w - 1 - (ds.length : Int)) = w - ((d :: ds).length : Int) := by
      rw [List.length_cons]; push_cast; ring
    rw [this]; ring

theorem mag_nonneg {ds : List Int} (h : Digits ds) (w : Int) : 0 ≤ mag ds w := by
  rw [mag_eq_dval]
  exact mul_nonneg (by exact_mod_cast dval_nonneg h) (B_zpow_pos _).le

theorem mag_lt {ds : List Int} (h : Digits ds) (w : Int) : mag ds w < 10000 ^ (w + 1) := by
  rw [mag_eq_dval]
  have h1 : (dval ds : ℚ) < 10000 ^ ds.length := by exact_mod_cast dval_lt h
  calc (dval ds : ℚ) * (10000 : ℚ) ^ (w + 1 - ds.length)
      < 10000 ^ ds.length * (10000 : ℚ) ^ (w + 1 - ds.length) := by
        exact mul_lt_mul_of_pos_right h1 (B_zpow_pos _)
    _ = 10000 ^ (w + 1) := by
        rw [← zpow_natCast, ← zpow_add₀ B_ne]; congr 1; ring

theorem mag_replicate (n : Nat) (w : Int) : mag (List.replicate n 0) w = 0 := by
  rw [mag_eq_dval]; simp

/-- A digit string with non-zero first digit is at least `10000^w`. -/
theorem mag_ge_of_head {d : Int} {ds : List Int} (h : Digits (d :: ds)) (hd : d ≠ 0) (w : Int) :
    (10000 : ℚ) ^ w ≤ mag (d :: ds) w := by
  rw [Digits.cons] at h
  rw [mag_cons]
  have h1 : (1:ℚ) ≤ d := by exact_mod_cast (by omega : (1:Int) ≤ d)
  have h2 := mag_nonneg h.2 (w - 1)
  nlinarith [B_zpow_pos w]

theorem abs_value (v : Var) (h : Digits v.digits) : |value v| = mag v.digits v.weight := by
  unfold value
  have := mag_nonneg h v.weight
  cases v.sign <;> simp [abs_of_nonneg this]

end PgNumeric
