import Verif.SpecRun
import Verif.Props.Text
import Verif.Props.Laws
import Verif.Props.Convert
/-!
# Histories of operations (C48, C07)
-/
namespace PgNumeric.Props
open PgNumeric Spec

/-- A step on numerics, with the API's own functions; `none` when the API reports an error or panics. -/
def run1 [Build] : Op1 → Bin → Option Bin
  | .negate, a => (Num.negate a).toOption
  | .abs, a => (Num.abs a).toOption
  | .signum, a => (Num.signum a).toOption
  | .inc, a => (Num.inc a).toOption
  | .ceil, a => (Num.ceil a).toOption
  | .floor, a => (Num.floor a).toOption
  | .round n, a => (Num.round a n).toOption
  | .trunc n, a => (Num.trunc a n).toOption
  | .copy, a => (Num.clone a).toOption

/-- The checked two-operand operations. -/
def run2 [Build] : Op2 → Bin → Bin → Option Bin
  | .add, a, b => (Num.checkedAdd a b).toOption.join
  | .sub, a, b => (Num.checkedSub a b).toOption.join
  | .mul, a, b => (Num.checkedMul a b).toOption.join
  | .div, a, b => (Num.checkedDiv a b).toOption.join
  | .divTrunc, a, b => (Num.checkedDivTrunc a b).toOption.join
  | .rem, a, b => (Num.checkedRem a b).toOption.join

/-- One step over registers that hold numerics. -/
def runInstr [Build] (env : List Bin) : Instr → Option Bin
  | .lit s => do
    match ← (Parse.fromStr s).toOption with
    | .ok b => some b
    | .error _ => none
  | .int ty n => (Convert.ofInt ty n).toOption
  | .op1 op i => do
    let a ← env[i]?
    run1 op a
  | .op2 op i j => do
    let a ← env[i]?
    let b ← env[j]?
    run2 op a b
  | .select i j k l => do
    let a ← env[i]?
    let b ← env[j]?
    let c ← (Num.le a b).toOption
    if c then env[k]? else env[l]?

/-- A program over registers that hold numerics, stopping at the first error. -/
def runProg [Build] : List Instr → List Bin → Option (List Bin)
  | [], env => some env
  | i :: prog, env => do
    let b ← runInstr env i
    runProg prog (env ++ [b])


/-- `o` is the numeric representing the one exact result that satisfies `E`, or there is neither. -/
def Sim [Build] (o : Option Bin) (E : Val → Prop) : Prop :=
  (∃ b v, o = some b ∧ Represents b v ∧ E v ∧ ∀ v', E v' → v' = v) ∨ (o = none ∧ ∀ v, ¬ E v)

theorem Sim.some [Build] {b : Bin} {v : Val} (h : Represents b v) {E : Val → Prop} (e : E v) (u : ∀ v', E v' → v' = v) :
    Sim (some b) E := .inl ⟨b, v, rfl, h, e, u⟩

theorem sim2_num [Build] {o : Option Bin} {op : Op2} {x y : ℚ} {s t : Int} {p : ℚ × ℤ} (hr : op.raw (x, s) (y, t) = some p)
    (h1 : InRange p → ∃ r, o = some r ∧ Holds r p.1 p.2) (h2 : ¬ InRange p → o = none) :
    Sim o (op.Exact (.num x s) (.num y t)) := by
  by_cases hf : InRange p
  · obtain ⟨r, rfl, h⟩ := h1 hf
    refine .some (v := .num p.1 p.2) h ⟨p, hr, hf, rfl⟩ ?_
    rintro v' ⟨q, hq, -, rfl⟩
    rw [hr] at hq; cases hq; rfl
  · refine .inr ⟨h2 hf, ?_⟩
    rintro v ⟨q, hq, hq', -⟩
    rw [hr] at hq; cases hq; exact hf hq'

theorem sim2_none [Build] {op : Op2} {x y : ℚ} {s t : Int} (hr : op.raw (x, s) (y, t) = none) :
    Sim (none : Option Bin) (op.Exact (.num x s) (.num y t)) := by
  refine .inr ⟨rfl, ?_⟩
  rintro v ⟨q, hq, -, -⟩
  rw [hr] at hq; cases hq

theorem represents_valid [Build] {a : Bin} {u : Val} (h : Represents a u) : Valid a := by
  cases u with
  | nan => exact .inl h
  | num x s => exact .inr ⟨x, s, h⟩

theorem represents_denotes [Build] {a : Bin} {u : Val} (h : Represents a u) : Denotes a u.key := by
  cases u with
  | nan => exact .inl ⟨h, rfl⟩
  | num x s => exact .inr ⟨x, s, h, rfl⟩

theorem run2_nan [Build] (op : Op2) {a b : Bin} (ha : Valid a) (hb : Valid b) (h : IsNaN a ∨ IsNaN b) :
    run2 op a b = some Bin.nan := by
  obtain ⟨h1, h2, h3, h4, h5, h6, -⟩ := C24_nan_binary ha hb h
  cases op <;> simp only [run2, h1, h2, h3, h4, h5, h6] <;> rfl

theorem run2_sim [Build] (op : Op2) {a b : Bin} {u v : Val} (ha : Represents a u) (hb : Represents b v) :
    Sim (run2 op a b) (op.Exact u v) := by
  have hva := represents_valid ha
  have hvb := represents_valid hb
  cases u with
  | nan =>
    rw [run2_nan op hva hvb (.inl ha)]
    exact .some (v := .nan) nan_isNaN rfl (fun v' h => h)
  | num x s =>
    cases v with
    | nan =>
      rw [run2_nan op hva hvb (.inr hb)]
      exact .some (v := .nan) nan_isNaN rfl (fun v' h => h)
    | num y t =>
      change Holds a x s at ha
      change Holds b y t at hb
      have hs := ha.bounds.2.2.1
      have ht := hb.bounds.2.2.1
      cases op with
      | add =>
        refine sim2_num rfl (fun hf => ?_) (fun hf => ?_)
        · obtain ⟨r, e, h⟩ := (C08_add_exact ha hb).1 hf.1
          exact ⟨r, by simp only [run2, e]; rfl, h⟩
        · have : limit ≤ |x + y| := by
            by_contra hc
            exact hf ⟨not_le.1 hc, max_le hs ht⟩
          simp only [run2, (C08_add_exact ha hb).2 this]; rfl
      | sub =>
        refine sim2_num rfl (fun hf => ?_) (fun hf => ?_)
        · obtain ⟨r, e, h⟩ := (C09_sub_exact ha hb).1 hf.1
          exact ⟨r, by simp only [run2, e]; rfl, h⟩
        · have : limit ≤ |x - y| := by
            by_contra hc
            exact hf ⟨not_le.1 hc, max_le hs ht⟩
          simp only [run2, (C09_sub_exact ha hb).2 this]; rfl
      | mul =>
        refine sim2_num rfl (fun hf => ?_) (fun hf => ?_)
        · obtain ⟨r, e, h⟩ := C10_mul_exact ha hb hf.2 hf.1
          exact ⟨r, by simp only [run2, e]; rfl, h⟩
        · cases hr : run2 .mul a b with
          | none => rfl
          | some r =>
            exfalso
            have he : Num.checkedMul a b = .ok (some r) := by
              simp only [run2] at hr
              cases hm : Num.checkedMul a b with
              | error e => rw [hm] at hr; cases hr
              | ok o => rw [hm] at hr; cases o with
                | none => cases hr
                | some q => cases hr; rfl
            have := (C10_mul_sound ha hb he).bounds
            exact hf ⟨this.2.2.2, this.2.2.1⟩
      | div =>
        by_cases hy : y = 0
        · subst hy
          have : run2 .div a b = none := by simp only [run2, (C14_div_by_zero ha hb).1]; rfl
          rw [this]
          exact sim2_none (by simp [Op2.raw])
        · refine sim2_num (if_neg hy) (fun hf => ?_) (fun hf => ?_)
          · obtain ⟨r, e, h⟩ := (C12_div_rounded ha hb hy).1 hf.1
            exact ⟨r, by simp only [run2, e]; rfl, h⟩
          · have hq := C13_quotient_scale ha hb
            have : limit ≤ |roundHalfAway (x / y) (quotientScale x y s t)| := by
              by_contra hc
              exact hf ⟨not_le.1 hc, by have := hq.2.1; omega⟩
            simp only [run2, (C12_div_rounded ha hb hy).2 this]; rfl
      | divTrunc =>
        by_cases hy : y = 0
        · subst hy
          have : run2 .divTrunc a b = none := by simp only [run2, (C14_div_by_zero ha hb).2.1]; rfl
          rw [this]
          exact sim2_none (by simp [Op2.raw])
        · have hd := Num.checkedDivTrunc_spec ha hb hy
          refine sim2_num (if_neg hy) (fun hf => ?_) (fun hf => ?_)
          · obtain ⟨r, e, h⟩ := hd.1 hf.1
            exact ⟨r, by simp only [run2, e]; rfl, h⟩
          · have : limit ≤ |truncTo (x / y) 0| := by
              by_contra hc
              exact hf ⟨not_le.1 hc, by norm_num⟩
            simp only [run2, hd.2 this]; rfl
      | rem =>
        by_cases hy : y = 0
        · subst hy
          have : run2 .rem a b = none := by simp only [run2, (C14_div_by_zero ha hb).2.2.1]; rfl
          rw [this]
          exact sim2_none (by simp [Op2.raw])
        · obtain ⟨r, e, -, h⟩ := Num.checkedRem_spec ha hb hy
          refine sim2_num (if_neg hy) (fun hf => ?_) (fun hf => ?_)
          · exact ⟨r, by simp only [run2, e]; rfl, h⟩
          · exact absurd ⟨h.bounds.2.2.2, h.bounds.2.2.1⟩ hf

theorem sim1_num [Build] {m : M Bin} {op : Op1} {x : ℚ} {s : Int}
    (h1 : InRange (op.raw (x, s)) → ∃ r, m = .ok r ∧ Holds r (op.raw (x, s)).1 (op.raw (x, s)).2)
    (h2 : ¬ InRange (op.raw (x, s)) → ∃ f, m = .error f) :
    Sim m.toOption (op.Exact (.num x s)) := by
  by_cases hf : InRange (op.raw (x, s))
  · obtain ⟨r, rfl, h⟩ := h1 hf
    exact .some (v := .num _ _) h ⟨hf, rfl⟩ (fun v' h => h.2)
  · obtain ⟨f, rfl⟩ := h2 hf
    exact .inr ⟨rfl, fun v h => hf h.1⟩

theorem run1_sim [Build] (op : Op1) {a : Bin} {u : Val} (ha : Represents a u) : Sim (run1 op a) (op.Exact u) := by
  cases u with
  | nan =>
    change IsNaN a at ha
    have : run1 op a = some Bin.nan := by
      cases op with
      | round n => simp only [run1, (C24_nan_unary ha n).1]; rfl
      | trunc n => simp only [run1, (C24_nan_unary ha n).2.1]; rfl
      | copy => simp only [run1, (C42_copies.2 ha).2]; rfl
      | _ =>
        obtain ⟨-, -, h3, h4, h5, h6, h7, h8⟩ := C24_nan_unary ha 0
        simp only [run1, h3, h4, h5, h6, h7, h8]; rfl
    rw [this]
    exact .some (v := .nan) nan_isNaN rfl (fun v' h => h)
  | num x s =>
    change Holds a x s at ha
    have hs := ha.bounds.2.2.1
    have key : ∀ {m : M Bin} {y : ℚ} {t : ℤ}, (∃ r, m = .ok r ∧ Holds r y t) → ¬ InRange (y, t) → ∃ f, m = .error f := by
      rintro m y t ⟨r, -, h⟩ hf
      exact absurd ⟨h.bounds.2.2.2, h.bounds.2.2.1⟩ hf
    obtain ⟨n1, n2, n3, n4, n5⟩ := C20_sign_ops ha
    cases op with
    | negate => exact sim1_num (fun _ => n1) (key n1)
    | abs => exact sim1_num (fun _ => n2) (key n2)
    | signum => exact sim1_num (fun _ => n3) (key n3)
    | inc =>
      refine sim1_num (fun hf => n4 hf.1) (fun hf => ⟨_, n5 ?_⟩)
      by_contra hc
      exact hf ⟨not_le.1 hc, hs⟩
    | ceil =>
      refine sim1_num (fun hf => (C19_ceil_floor ha).1.1 hf.1) (fun hf => ⟨_, (C19_ceil_floor ha).1.2 ?_⟩)
      by_contra hc
      exact hf ⟨not_le.1 hc, by norm_num [Op1.raw]⟩
    | floor =>
      refine sim1_num (fun hf => (C19_ceil_floor ha).2.1 hf.1) (fun hf => ⟨_, (C19_ceil_floor ha).2.2 ?_⟩)
      by_contra hc
      exact hf ⟨not_le.1 hc, by norm_num [Op1.raw]⟩
    | round n =>
      refine sim1_num (fun hf => (C17_round ha n).1 hf.1) (fun hf => ⟨_, (C17_round ha n).2 ?_⟩)
      by_contra hc
      refine hf ⟨not_le.1 hc, ?_⟩
      omega
    | trunc n => exact sim1_num (fun _ => C18_trunc ha n) (key (C18_trunc ha n))
    | copy =>
      have h := (C42_copies.1 x s ha).2
      exact sim1_num (fun _ => ⟨a, h, ha⟩) (key ⟨a, h, ha⟩)

theorem represents_unique [Build] {b : Bin} {u v : Val} (hu : Represents b u) (hv : Represents b v) : u = v := by
  cases u with
  | nan =>
    cases v with
    | nan => rfl
    | num x s => exact absurd hv ((C24_nan_accessors hu).2.2.2.2 x s)
  | num x s =>
    cases v with
    | nan => exact absurd hu ((C24_nan_accessors hv).2.2.2.2 x s)
    | num y t =>
      obtain ⟨rfl, rfl⟩ := Holds.inj hu hv
      rfl

theorem lit_sound [Build] {s : Str} (hs : s.length < 2 ^ 29) {v : Val} (h : LitExact s v) :
    ∃ b, Parse.fromStr s = .ok (.ok b) ∧ Represents b v := by
  rcases h with ⟨h, rfl⟩ | ⟨neg, int, frac, exp, hl, h1, h2, h3, rfl⟩
  · exact C01_nan h
  · obtain ⟨r, e⟩ := (C03_parse_range hs hl).1.2 ⟨h1, h2, h3⟩
    exact ⟨r, e, C02_parse_exact hs hl e⟩

theorem lit_complete [Build] {s : Str} (hs : s.length < 2 ^ 29) {b : Bin} (h : Parse.fromStr s = .ok (.ok b)) :
    ∃ v, LitExact s v ∧ Represents b v := by
  rcases (C01_grammar hs).2.2.1 (.inl ⟨b, h⟩) with hn | ⟨neg, int, frac, exp, hl⟩ | hh
  · obtain ⟨r, e, hr⟩ := C01_nan hn
    rw [h] at e; cases e
    exact ⟨.nan, .inl ⟨hn, rfl⟩, hr⟩
  · obtain ⟨h1, h2, h3⟩ := (C03_parse_range hs hl).1.1 ⟨b, h⟩
    exact ⟨.num _ _, .inr ⟨neg, int, frac, exp, hl, h1, h2, h3, rfl⟩, C02_parse_exact hs hl h⟩
  · rw [Parse.fromStr_huge hh] at h; cases h

theorem regs [Build] {env : List Bin} {venv : List Val} (h : List.Forall₂ Represents env venv) (i : ℕ) :
    (∃ a u, env[i]? = some a ∧ venv[i]? = some u ∧ Represents a u) ∨ (env[i]? = none ∧ venv[i]? = none) := by
  induction h generalizing i with
  | nil => exact .inr ⟨by simp, by simp⟩
  | cons hab _ ih =>
    cases i with
    | zero => exact .inl ⟨_, _, by simp, by simp, hab⟩
    | succ i => simpa using ih i

/-- One step of a program is simulated by one exact step. -/
theorem runInstr_sim [Build] {env : List Bin} {venv : List Val} (h : List.Forall₂ Represents env venv) (i : Instr)
    (hi : i.Ok) : Sim (runInstr env i) (i.Exact venv) := by
  cases i with
  | lit s =>
    change s.length < 2 ^ 29 at hi
    obtain ⟨r, hr⟩ := C01_total hi
    cases r with
    | ok b =>
      have e : runInstr env (.lit s) = some b := by simp only [runInstr, hr]; rfl
      rw [e]
      obtain ⟨v, hv, hb⟩ := lit_complete hi hr
      refine .some hb hv (fun v' h' => ?_)
      obtain ⟨b', e', hb'⟩ := lit_sound hi h'
      rw [hr] at e'; cases e'
      exact represents_unique hb' hb
    | error f =>
      refine .inr ⟨by simp only [runInstr, hr]; rfl, fun v hv => ?_⟩
      obtain ⟨b', e', -⟩ := lit_sound hi hv
      rw [hr] at e'; cases e'
  | int ty n =>
    obtain ⟨b, e, hb⟩ := C29_from_int hi.1 hi.2
    have e : runInstr env (.int ty n) = some b := by simp only [runInstr, e]; rfl
    rw [e]
    exact .some (v := .num n 0) hb rfl (fun v' h => h)
  | op1 op i =>
    rcases regs h i with ⟨a, u, ea, eu, hr⟩ | ⟨ea, eu⟩
    · have e1 : runInstr env (.op1 op i) = run1 op a := by simp only [runInstr, ea]; rfl
      have e2 : Instr.Exact venv (.op1 op i) = op.Exact u := by
        funext r; simp [Instr.Exact, eu]
      rw [e1, e2]; exact run1_sim op hr
    · refine .inr ⟨by simp only [runInstr, ea]; rfl, ?_⟩
      rintro v ⟨u, hu, -⟩
      rw [eu] at hu; cases hu
  | op2 op i j =>
    rcases regs h i with ⟨a, u, ea, eu, hr⟩ | ⟨ea, eu⟩
    · rcases regs h j with ⟨b, v, eb, ev, hs⟩ | ⟨eb, ev⟩
      · have e1 : runInstr env (.op2 op i j) = run2 op a b := by simp only [runInstr, ea, eb]; rfl
        have e2 : Instr.Exact venv (.op2 op i j) = op.Exact u v := by
          funext r; simp [Instr.Exact, eu, ev]
        rw [e1, e2]; exact run2_sim op hr hs
      · refine .inr ⟨by simp only [runInstr, ea, eb]; rfl, ?_⟩
        rintro w ⟨u, v, -, hv, -⟩
        rw [ev] at hv; cases hv
    · refine .inr ⟨by simp only [runInstr, ea]; rfl, ?_⟩
      rintro v ⟨u, w, hu, -⟩
      rw [eu] at hu; cases hu
  | select i j k l =>
    rcases regs h i with ⟨a, u, ea, eu, hr⟩ | ⟨ea, eu⟩
    · rcases regs h j with ⟨b, v, eb, ev, hs⟩ | ⟨eb, ev⟩
      · have hle := (C21_cmp_is_value_order (represents_denotes hr) (represents_denotes hs)).2.2.2.2
        have e1 : runInstr env (.select i j k l) = if decide (u.key ≤ v.key) then env[k]? else env[l]? := by
          simp only [runInstr, ea, eb, Option.bind_eq_bind, Option.bind_some, hle, Except.toOption]
        have e2 : Instr.Exact venv (.select i j k l) = fun r => if u.key ≤ v.key then venv[k]? = some r else venv[l]? = some r := by
          funext r; simp [Instr.Exact, eu, ev]
        have fin : ∀ m : ℕ, Sim (env[m]?) (fun r => venv[m]? = some r) := by
          intro m
          rcases regs h m with ⟨c, w, ec, ew, hc⟩ | ⟨ec, ew⟩
          · rw [ec, ew]
            exact .some hc rfl (fun v' h => by cases h; rfl)
          · rw [ec, ew]
            exact .inr ⟨rfl, fun v h => by cases h⟩
        rw [e1, e2]
        by_cases hc : u.key ≤ v.key
        · simp only [hc, decide_true, if_true]; exact fin k
        · simp only [hc, decide_false, if_false, Bool.false_eq_true]; exact fin l
      · refine .inr ⟨by simp only [runInstr, ea, eb]; rfl, ?_⟩
        rintro w ⟨u, v, -, hv, -⟩
        rw [ev] at hv; cases hv
    · refine .inr ⟨by simp only [runInstr, ea]; rfl, ?_⟩
      rintro v ⟨u, w, hu, -⟩
      rw [eu] at hu; cases hu

/-- C48: a program of parses, integer conversions, arithmetic, rounding, copies and comparisons run through the API
succeeds exactly when it succeeds on exact rationals (no division by zero, no unrepresentable result, no rejected
text), and then every register holds the canonical bytes of its exact value and scale (or NaN). -/
theorem C48_history [Build] (prog : List Instr) (hp : ∀ i ∈ prog, i.Ok) {env : List Bin} {venv : List Val}
    (h : List.Forall₂ Represents env venv) :
    (∃ env' venv', runProg prog env = some env' ∧ ExactRun prog venv venv' ∧ List.Forall₂ Represents env' venv' ∧
      ∀ w, ExactRun prog venv w → w = venv') ∨
    (runProg prog env = none ∧ ∀ venv', ¬ ExactRun prog venv venv') := by
  induction prog generalizing env venv with
  | nil => exact .inl ⟨env, venv, rfl, .nil, h, by rintro w (_ | _); rfl⟩
  | cons i prog ih =>
    rcases runInstr_sim h i (hp i (by simp)) with ⟨b, v, e, hb, hv, hu⟩ | ⟨e, hn⟩
    · have e' : runProg (i :: prog) env = runProg prog (env ++ [b]) := by simp only [runProg, e]; rfl
      rcases ih (fun j hj => hp j (by simp [hj])) (List.rel_append h (.cons hb .nil)) with
        ⟨env', venv', r, x, f, un⟩ | ⟨r, x⟩
      · refine .inl ⟨env', venv', e'.trans r, .cons hv x, f, ?_⟩
        rintro w (_ | ⟨hv', hx⟩)
        rw [hu _ hv'] at hx
        exact un _ hx
      · refine .inr ⟨e'.trans r, ?_⟩
        rintro venv' (_ | ⟨hv', hx⟩)
        rw [hu _ hv'] at hx
        exact x _ hx
    · refine .inr ⟨by simp only [runProg, e]; rfl, ?_⟩
      rintro venv' (_ | ⟨hv', hx⟩)
      exact hn _ hv'

/-- C07: every numeric reachable from nothing through the API is NaN or canonical. -/
theorem C07_reachable_valid [Build] (prog : List Instr) (hp : ∀ i ∈ prog, i.Ok) {env : List Bin}
    (h : runProg prog [] = some env) : ∀ b ∈ env, Valid b := by
  rcases C48_history prog hp (env := []) (venv := []) .nil with ⟨env', venv', e, -, f, -⟩ | ⟨e, -⟩
  · rw [h] at e; cases e
    intro b hb
    clear h
    induction f with
    | nil => cases hb
    | cons hr _ ih =>
      rcases List.mem_cons.1 hb with rfl | hb
      exacts [represents_valid hr, ih hb]
  · rw [h] at e; cases e

/-- Non-vacuity: `x = 7; y = -2; q = x / y; m = if q <= x { q } else { x }; z = floor(m)`. -/
example [Build] : ∃ env, runProg [.int .i32 7, .int .i32 (-2), .op2 .divTrunc 0 1, .select 2 0 2 0, .op1 .negate 3] [] = some env ∧
    ∃ b, env[4]? = some b ∧ Holds b 3 0 := by
  have hok : ∀ i ∈ ([.int .i32 7, .int .i32 (-2), .op2 .divTrunc 0 1, .select 2 0 2 0, .op1 .negate 3] : List Instr), i.Ok := by
    intro i hi
    simp only [List.mem_cons, List.not_mem_nil, or_false] at hi
    rcases hi with rfl | rfl | rfl | rfl | rfl
    · exact ⟨by decide, by decide, by decide⟩
    · exact ⟨by decide, by decide, by decide⟩
    all_goals trivial
  have ht : truncTo (7 / -2) 0 = -3 := by
    have : ⌊(7 / 2 : ℚ)⌋ = 3 := by rw [Int.floor_eq_iff]; norm_num
    unfold truncTo
    rw [if_pos (by norm_num)]
    norm_num [this]
  have hx : ExactRun [.int .i32 7, .int .i32 (-2), .op2 .divTrunc 0 1, .select 2 0 2 0, .op1 .negate 3] []
      [.num 7 0, .num (-2) 0, .num (-3) 0, .num (-3) 0, .num 3 0] := by
    refine .cons (r := .num 7 0) (by simp [Instr.Exact]) ?_
    refine .cons (r := .num (-2) 0) (by simp [Instr.Exact]) ?_
    refine .cons (r := .num (-3) 0) ?_ ?_
    · refine ⟨_, _, rfl, rfl, (-3, 0), ?_, ⟨lt_limit (by norm_num), by norm_num⟩, rfl⟩
      simp only [Op2.raw]
      rw [if_neg (by norm_num), ht]
    refine .cons (r := .num (-3) 0) ?_ ?_
    · refine ⟨_, _, rfl, rfl, ?_⟩
      rw [if_pos]
      · rfl
      · simp only [Val.key]; exact_mod_cast (by norm_num : (-3 : ℚ) ≤ 7)
    refine .cons (r := .num 3 0) ?_ .nil
    refine ⟨_, rfl, ⟨lt_limit (by norm_num [Op1.raw]), by norm_num [Op1.raw]⟩, by norm_num [Op1.raw]⟩
  rcases C48_history _ hok (env := []) (venv := []) .nil with ⟨env', venv', e, x, f, un⟩ | ⟨-, hn⟩
  · refine ⟨env', e, ?_⟩
    rw [← un _ hx] at f
    rcases regs f 4 with ⟨b, u, eb, eu, hr⟩ | ⟨-, eu⟩
    · cases eu
      exact ⟨b, eb, hr⟩
    · cases eu
  · exact absurd hx (hn _)

end PgNumeric.Props
