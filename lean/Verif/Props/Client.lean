import Verif.SpecClient
import Verif.Props.History
import Verif.Props.Heap
import Verif.Props.Format
import Verif.Props.Sci
import Verif.Props.Factorial
import Verif.Props.Float
/-!
# Programs that look at the answers (C61)

The program calls the library's own functions on numbers in memory (`Verif/Model/Heap.lean`), and catches panics. Out-of-bounds and
dangling accesses, arithmetic overflow and non-termination are not caught: a run that returns `.ok` has none.
-/
namespace PgNumeric.Props
open PgNumeric Spec

/-- The layouts the library may choose for its results: the allocation holds the numeric. -/
def GoodLayout [Build] (lay : ℕ → Bin → Buf) : Prop := ∀ n a, Valid a → Owned (lay n a) a

/-! ## The calls -/

theorem Inv.look [Build] {w : World} {l : List Slot} (hI : Inv w l) {i : Nat} {v : Val} (hl : l[i]? = some (.val v)) :
    ∃ a, w.get i = .ok a ∧ Represents a v := by
  obtain ⟨p, b, a, hx, hp, ho, hr⟩ := hI.get hl
  exact ⟨a, by simp only [World.get, hx]; rw [HBuf.asNumeric_at hp]; exact ho.asNumeric, hr⟩

theorem Inv.put [Build] {w : World} {l : List Slot} (hI : Inv w l) {lay : ℕ → Bin → Buf} (hg : GoodLayout lay) {a : Bin} {v : Val}
    (hr : Represents a v) : Inv (w.put lay a) (l ++ [.val v]) :=
  hI.make (hg _ _ (represents_valid hr)) hr

theorem fresh_ok {lay : ℕ → Bin → Buf} {w : World} {m : M Bin} {a : Bin} (h : m = .ok a) : fresh lay w m = .ok (.number, w.put lay a) := by
  subst h; rfl

theorem freshOption_some {lay : ℕ → Bin → Buf} {w : World} {m : M (Option Bin)} {a : Bin} (h : m = .ok (some a)) :
    freshOption lay w m = .ok (.number, w.put lay a) := by
  subst h; rfl

theorem freshOption_none {lay : ℕ → Bin → Buf} {w : World} {m : M (Option Bin)} (h : m = .ok none) :
    freshOption lay w m = .ok (.none, w) := by
  subst h; rfl

theorem call1_sim [Build] (op : Op1) {a : Bin} {u : Val} (ha : Represents a u) :
    (∃ b v, call1 op a = .ok b ∧ Represents b v ∧ op.Exact u v) ∨
    (call1 op a = .error (.panic "value overflows numeric format") ∧ ∀ v, ¬ op.Exact u v) := by
  have hrun : run1 op a = (call1 op a).toOption := by
    cases op <;> try rfl
    cases u with
    | nan => simp only [run1, call1, (C42_copies.2 ha).1, (C42_copies.2 ha).2]
    | num x s => simp only [run1, call1, (C42_copies.1 x s ha).1, (C42_copies.1 x s ha).2]
  rcases run1_sim op ha with ⟨b, v, e, hb, hv, -⟩ | ⟨e, hn⟩
  · refine .inl ⟨b, v, ?_, hb, hv⟩
    rw [hrun] at e
    cases hc : call1 op a with
    | ok r => rw [hc] at e; cases e; rfl
    | error f => rw [hc] at e; cases e
  · refine .inr ⟨?_, hn⟩
    rw [hrun] at e
    cases u with
    | nan => exact absurd rfl (hn .nan)
    | num x s =>
      change Holds a x s at ha
      have hs := ha.bounds.2.2.1
      have hno : ¬ InRange (op.raw (x, s)) := fun h => hn (.num (op.raw (x, s)).1 (op.raw (x, s)).2) ⟨h, rfl⟩
      have bad : ∀ {m : M Bin} {P : Prop}, (∃ r y t, m = .ok r ∧ Holds r y t) → m.toOption = none → P := by
        rintro m P ⟨r, y, t, rfl, -⟩ h
        cases h
      obtain ⟨n1, n2, n3, n4, n5⟩ := C20_sign_ops ha
      have hc : ∀ {z : ℚ} {t : ℤ}, ¬ InRange (z, t) → t ≤ 16383 → limit ≤ |z| := by
        intro z t h ht
        by_contra hlt
        exact h ⟨not_le.1 hlt, ht⟩
      cases op with
      | negate => obtain ⟨r, h⟩ := n1; exact bad ⟨r, _, _, h⟩ e
      | abs => obtain ⟨r, h⟩ := n2; exact bad ⟨r, _, _, h⟩ e
      | signum => obtain ⟨r, h⟩ := n3; exact bad ⟨r, _, _, h⟩ e
      | inc => exact n5 (hc hno hs)
      | ceil => exact (C19_ceil_floor ha).1.2 (hc hno (by norm_num))
      | floor => exact (C19_ceil_floor ha).2.2 (hc hno (by norm_num))
      | round n => exact (C17_round ha n).2 (hc hno (by omega))
      | trunc n => obtain ⟨r, h⟩ := C18_trunc ha n; exact bad ⟨r, _, _, h⟩ e
      | copy => exact bad ⟨a, _, _, (C42_copies.1 x s ha).1, ha⟩ e

theorem call2_sim [Build] (op : Op2) {a b : Bin} {u v : Val} (ha : Represents a u) (hb : Represents b v) :
    (∃ c r, call2 op a b = .ok (some c) ∧ Represents c r ∧ op.Exact u v r) ∨
    ((∀ r, ¬ op.Exact u v r) ∧ (Build.debug = true ∧ ZeroScale op u v) ∧ call2 op a b = .error .assert) ∨
    ((∀ r, ¬ op.Exact u v r) ∧ ¬ (Build.debug = true ∧ ZeroScale op u v) ∧ call2 op a b = .ok none) := by
  have hrun : run2 op a b = (call2 op a b).toOption.join := by cases op <;> rfl
  rcases run2_sim op ha hb with ⟨c, r, e, hc, hr, -⟩ | ⟨e, hn⟩
  · refine .inl ⟨c, r, ?_, hc, hr⟩
    rw [hrun] at e
    cases h : call2 op a b with
    | ok o => rw [h] at e; cases o <;> cases e; rfl
    | error f => rw [h] at e; cases e
  · refine .inr ?_
    rw [hrun] at e
    cases u with
    | nan => cases v <;> exact absurd rfl (hn .nan)
    | num x s =>
      cases v with
      | nan => exact absurd rfl (hn .nan)
      | num y t =>
        change Holds a x s at ha
        change Holds b y t at hb
        by_cases hz : Build.debug = true ∧ ZeroScale op (.num x s) (.num y t)
        · refine .inl ⟨hn, hz, ?_⟩
          cases op <;> try exact hz.2.elim
          exact C11_zero_scale_panics ha hb hz.1 hz.2.2 hz.2.1
        · refine .inr ⟨hn, hz, ?_⟩
          have key : ∀ {m : M (Option Bin)}, (∃ o, m = .ok o) → m.toOption.join = none → m = .ok none := by
            rintro m ⟨o, rfl⟩ h
            cases o <;> cases h; rfl
          refine key ?_ e
          cases op with
          | add =>
            rcases lt_or_ge |x + y| limit with h | h
            · obtain ⟨r, e, -⟩ := (C08_add_exact ha hb).1 h; exact ⟨_, e⟩
            · exact ⟨_, (C08_add_exact ha hb).2 h⟩
          | sub =>
            rcases lt_or_ge |x - y| limit with h | h
            · obtain ⟨r, e, -⟩ := (C09_sub_exact ha hb).1 h; exact ⟨_, e⟩
            · exact ⟨_, (C09_sub_exact ha hb).2 h⟩
          | mul =>
            have h3 : x * y ≠ 0 ∨ s + t ≤ 16383 ∨ Build.debug = false := by
              by_contra hc
              push Not at hc
              exact hz ⟨by simpa using hc.2.2, hc.1, hc.2.1⟩
            by_cases hr : 10 ^ 131072 ≤ |x * y| ∨ 16383 < s + t
            · exact ⟨_, (C11_overflow_mul_partial ha hb h3).2 hr⟩
            · push Not at hr
              obtain ⟨r, e, -⟩ := C10_mul_exact ha hb hr.2 hr.1
              exact ⟨_, e⟩
          | div =>
            by_cases hy : y = 0
            · subst hy; exact ⟨_, (C14_div_by_zero ha hb).1⟩
            · rcases lt_or_ge |roundHalfAway (x / y) (quotientScale x y s t)| limit with h | h
              · obtain ⟨r, e, -⟩ := (C12_div_rounded ha hb hy).1 h; exact ⟨_, e⟩
              · exact ⟨_, (C12_div_rounded ha hb hy).2 h⟩
          | divTrunc =>
            by_cases hy : y = 0
            · subst hy; exact ⟨_, (C14_div_by_zero ha hb).2.1⟩
            · rcases lt_or_ge |truncTo (x / y) 0| limit with h | h
              · obtain ⟨r, e, -⟩ := (Num.checkedDivTrunc_spec ha hb hy).1 h; exact ⟨_, e⟩
              · exact ⟨_, (Num.checkedDivTrunc_spec ha hb hy).2 h⟩
          | rem =>
            by_cases hy : y = 0
            · subst hy; exact ⟨_, (C14_div_by_zero ha hb).2.2.1⟩
            · obtain ⟨r, e, -⟩ := Num.checkedRem_spec ha hb hy; exact ⟨_, e⟩

theorem callOp_sim [Build] (op : Op2) (hop : op ≠ .divTrunc) {a b : Bin} {u v : Val} (ha : Represents a u) (hb : Represents b v) :
    (∃ c r, callOp op a b = .ok c ∧ Represents c r ∧ op.Exact u v r) ∨
    ((∀ r, ¬ op.Exact u v r) ∧ (Build.debug = true ∧ ZeroScale op u v) ∧ callOp op a b = .error .assert) ∨
    ((∀ r, ¬ op.Exact u v r) ∧ ¬ (Build.debug = true ∧ ZeroScale op u v) ∧ callOp op a b = .error (.panic (op.message v))) := by
  have hva := represents_valid ha
  have hvb := represents_valid hb
  obtain ⟨p1, p2, p3, p4, p5, p6⟩ : _ ∧ _ ∧ _ ∧ _ ∧ _ ∧ _ :=
    ⟨fun r => (C40_add_sub_mul a b r).1.2, (C40_add_sub_mul a b a).2.1, fun r => (C40_add_sub_mul a b r).2.2.1.2,
      (C40_add_sub_mul a b a).2.2.2.1, fun r => (C40_add_sub_mul a b r).2.2.2.2.1.2, (C40_add_sub_mul a b a).2.2.2.2.2⟩
  obtain ⟨q1, q2, q3, q4, q5⟩ := C40_div_rem hva hvb
  rcases call2_sim op ha hb with ⟨c, r, e, hc, hr⟩ | ⟨hn, hz, e⟩ | ⟨hn, hz, e⟩
  · refine .inl ⟨c, r, ?_, hc, hr⟩
    cases op with
    | add => exact p1 c e
    | sub => exact p3 c e
    | mul => exact p5 c e
    | div => exact q1 c e
    | rem => exact q4 c e
    | divTrunc => exact absurd rfl hop
  · refine .inr (.inl ⟨hn, hz, ?_⟩)
    cases op with
    | mul =>
      change Num.checkedMul a b = _ at e
      simp only [callOp, Num.opMul, e]
      rfl
    | _ => cases u <;> cases v <;> exact hz.2.elim
  · refine .inr (.inr ⟨hn, hz, ?_⟩)
    have hv : ∀ y t, Represents b (.num y t) → ((∃ t, Holds b 0 t) ↔ y = 0) := by
      intro y t h
      change Holds b y t at h
      constructor
      · rintro ⟨t', h'⟩; exact (h.inj h').1
      · rintro rfl; exact ⟨t, h⟩
    have hnv : ∀ op' : Op2, op' = op → v ≠ .nan := by
      rintro op' - rfl
      cases u <;> exact hn .nan rfl
    cases op with
    | add => exact p2 e
    | sub => exact p4 e
    | mul => exact p6 e
    | divTrunc => exact absurd rfl hop
    | div =>
      cases v with
      | nan => exact absurd rfl (hnv _ rfl)
      | num y t =>
        by_cases hy : y = 0
        · simp only [callOp, Op2.message, if_pos hy]; exact q2 e ((hv y t hb).2 hy)
        · simp only [callOp, Op2.message, if_neg hy]; exact q3 e (fun h => hy ((hv y t hb).1 h))
    | rem =>
      cases v with
      | nan => exact absurd rfl (hnv _ rfl)
      | num y t =>
        have hy : y = 0 := by
          by_contra hy
          cases u with
          | nan => exact hn .nan rfl
          | num x s =>
            obtain ⟨r, er, -⟩ := Num.checkedRem_spec ha hb hy
            change Num.checkedRem a b = _ at e
            rw [er] at e; cases e
        simp only [callOp, Op2.message, if_pos hy]
        exact q5 e

theorem callMut_num [Build] {w : World} {l : List Slot} (hI : Inv w l) {i : Nat} {x : ℚ} {s : ℤ} (hl : l[i]? = some (.val (.num x s)))
    (op : MutOp) (hop : op.Ok) :
    (∃ z ans y h y' t, w.regs[i]? = some (some z) ∧ callMut w.heap z op = .ok (ans, y, h) ∧ ans = op.answer x ∧
      op.exact (x, s) = some (y', t) ∧ Inv ⟨h, w.regs.set i (some y)⟩ (l.set i (.val (.num y' t))) ∧ ∃ p, z.ptr = some p ∧ Ev w.heap p h y.ptr) ∨
    (∃ z ans y h, w.regs[i]? = some (some z) ∧ callMut w.heap z op = .ok (ans, y, h) ∧ ans = op.failure ∧ op.exact (x, s) = none ∧
      Inv ⟨h, w.regs.set i (some y)⟩ (l.set i .null) ∧ ∃ p, z.ptr = some p ∧ Ev w.heap p h y.ptr) := by
  obtain ⟨p, b, a, hx, hp, ho, ha⟩ := hI.get hl
  change Holds a x s at ha
  have hspec := step_spec ho ha op hop
  cases op with
  | negate =>
    rcases hspec with ⟨h1, -⟩ | ⟨y, t, b', a', h1, h2, ho', ha'⟩
    · cases h1
    · simp only [stepBuf] at h2
      obtain ⟨b1, e, h2⟩ := bind_elim h2
      cases h2
      obtain ⟨h', q, e', he, hq⟩ := HBuf.negateMut_at hI.wf hp e
      exact .inl ⟨_, _, _, _, _, _, hx, by simp only [callMut]; rw [e', bind_ok]; rfl, rfl, h1, hI.moved hx he hq ho' (v := .num y t) ha', p, rfl, he⟩
  | abs =>
    rcases hspec with ⟨h1, -⟩ | ⟨y, t, b', a', h1, h2, ho', ha'⟩
    · cases h1
    · simp only [stepBuf] at h2
      obtain ⟨b1, e, h2⟩ := bind_elim h2
      cases h2
      obtain ⟨h', q, e', he, hq⟩ := HBuf.absMut_at hI.wf hp e
      exact .inl ⟨_, _, _, _, _, _, hx, by simp only [callMut]; rw [e', bind_ok]; rfl, rfl, h1, hI.moved hx he hq ho' (v := .num y t) ha', p, rfl, he⟩
  | trunc n =>
    rcases hspec with ⟨h1, -⟩ | ⟨y, t, b', a', h1, h2, ho', ha'⟩
    · cases h1
    · simp only [stepBuf] at h2
      obtain ⟨b1, e, h2⟩ := bind_elim h2
      cases h2
      obtain ⟨h', q, e', he, hq⟩ := HBuf.truncMut_at hI.wf hp e
      exact .inl ⟨_, _, _, _, _, _, hx, by simp only [callMut]; rw [e', bind_ok]; rfl, rfl, h1, hI.moved hx he hq ho' (v := .num y t) ha', p, rfl, he⟩
  | round n =>
    rcases hspec with ⟨h1, h2⟩ | ⟨y, t, b', a', h1, h2, ho', ha'⟩
    · rcases HBuf.roundMut_at hI.wf hp h2 with ⟨b', h', q, e0, -⟩ | ⟨h', -, e', he⟩
      · cases e0
      · exact .inr ⟨_, _, _, _, hx, by simp only [callMut]; rw [e', bind_ok]; rfl, rfl, h1, hI.nulled hx he, p, rfl, he⟩
    · rcases HBuf.roundMut_at hI.wf hp h2 with ⟨b1, h', q, e0, e', he, hq⟩ | ⟨h', e0, -⟩
      · cases e0
        exact .inl ⟨_, _, _, _, _, _, hx, by simp only [callMut]; rw [e', bind_ok]; rfl, rfl, h1, hI.moved hx he hq ho' (v := .num y t) ha', p, rfl, he⟩
      · cases e0
  | typmod pr k =>
    obtain ⟨t, ht⟩ := (C25_new_iff pr k).1 hop
    obtain ⟨o, e, s1, n1⟩ := Buf.applyTypmod_spec ho ha ht
    rcases lt_or_ge |roundHalfAway x k.toInt| limit with hlt | hge
    · obtain ⟨b', a', rfl, hb, ha'⟩ := s1 hlt
      rcases HBuf.applyTypmod_at hI.wf hp e with ⟨b1, h', q, e0, e', he, hq⟩ | ⟨h', e0, -⟩
      · cases e0
        exact .inl ⟨_, _, _, _, _, _, hx, by simp only [callMut, ht, bind_ok]; rw [e', bind_ok]; rfl, rfl,
          by simp only [MutOp.exact, if_pos hlt], hI.moved hx he hq hb (v := .num _ _) ha', p, rfl, he⟩
      · cases e0
    · rw [n1 hge] at e
      rcases HBuf.applyTypmod_at hI.wf hp e with ⟨b1, h', q, e0, -⟩ | ⟨h', e0, e', he⟩
      · cases e0
      · refine .inr ⟨_, _, _, _, hx, by simp only [callMut, ht, bind_ok]; rw [e', bind_ok]; rfl, ?_,
          by simp only [MutOp.exact, if_neg (not_lt.2 hge)], hI.nulled hx he, p, rfl, he⟩
        have hle : (10:ℚ) ^ (pr.toInt - k.toInt) ≤ |roundHalfAway x k.toInt| := by
          refine le_trans ?_ hge
          obtain ⟨h1, h2, h3, h4⟩ := hop
          rw [limit_eq, B_eq_T]
          exact zpow_le_zpow_right₀ (by norm_num) (by omega)
        simp only [MutOp.failure, decide_eq_true hle]

theorem callMut_nan [Build] {w : World} {l : List Slot} (hI : Inv w l) {i : Nat} (hl : l[i]? = some (.val .nan))
    (op : MutOp) (hop : ∀ p s, op ≠ .typmod p s) :
    ∃ z y h, w.regs[i]? = some (some z) ∧ callMut w.heap z op = .ok (.unit, y, h) ∧ Inv ⟨h, w.regs.set i (some y)⟩ l ∧ ∃ p, z.ptr = some p ∧ Ev w.heap p h y.ptr := by
  obtain ⟨p, b, a, hx, hp, ho, hr⟩ := hI.get hl
  change IsNaN a at hr
  have fin : ∀ {h' q}, Ev w.heap p h' (some q) → h'.live q = some ⟨b.cells, 2⟩ → Inv ⟨h', w.regs.set i (some (b.at q))⟩ l := by
    intro h' q he hq
    have := hI.moved hx he hq ho (v := .nan) hr
    rwa [set_self hl] at this
  cases op with
  | negate =>
    obtain ⟨h', q, e', he, hq⟩ := HBuf.negateMut_at hI.wf hp (Buf.mut_nan ho hr 0).1
    exact ⟨_, _, _, hx, by simp only [callMut]; rw [e', bind_ok]; rfl, fin he hq, p, rfl, he⟩
  | abs =>
    obtain ⟨h', q, e', he, hq⟩ := HBuf.absMut_at hI.wf hp (Buf.mut_nan ho hr 0).2.1
    exact ⟨_, _, _, hx, by simp only [callMut]; rw [e', bind_ok]; rfl, fin he hq, p, rfl, he⟩
  | round n =>
    rcases HBuf.roundMut_at hI.wf hp (Buf.mut_nan ho hr n).2.2.1 with ⟨b1, h', q, e0, e', he, hq⟩ | ⟨h', e0, -⟩
    · cases e0
      exact ⟨_, _, _, hx, by simp only [callMut]; rw [e', bind_ok]; rfl, fin he hq, p, rfl, he⟩
    · cases e0
  | trunc n =>
    obtain ⟨h', q, e', he, hq⟩ := HBuf.truncMut_at hI.wf hp (Buf.mut_nan ho hr n).2.2.2
    exact ⟨_, _, _, hx, by simp only [callMut]; rw [e', bind_ok]; rfl, fin he hq, p, rfl, he⟩
  | typmod pr k => exact absurd rfl (hop pr k)

theorem rounds_seen {x : ℚ} {f : Convert.Float} (h : RoundsTo F64.double x f) : seen f = seen (F64.double.round (decide (x < 0)) |x|) := by
  rcases h with rfl | ⟨h0, rfl⟩
  · rfl
  · unfold F64.Format.round
    rw [h0, if_neg (not_le.2 (by positivity))]
    simp [seen]

theorem toF32_seen [Build] {strtod : Str → Option Convert.Float} (h : StrtodOK strtod) {a : Bin} {x : ℚ} {s : Int} (ha : Holds a x s) :
    ∃ o, Num.toF32 strtod a = .ok o ∧ o.map seen = singleOf x := by
  obtain ⟨h1, h2, h3, h4, h5⟩ := toF32_rounds h ha
  unfold singleOf
  by_cases c1 : 2 ^ 1024 - 2 ^ 970 ≤ |x|
  · rw [if_pos c1]
    exact ⟨_, h1 c1, rfl⟩
  rw [if_neg c1]
  by_cases c2 : |x| ≤ 1 / 2 ^ 1075
  · rw [if_pos c2]
    obtain ⟨neg, e⟩ := h4 c2
    exact ⟨_, e, by simp [Except.map, seen]⟩
  rw [if_neg c2]
  by_cases c3 : 2 ^ 128 - 2 ^ 103 - 2 ^ 74 ≤ |x| ∨ |x| ≤ 1 / 2 ^ 150 + 1 / 2 ^ 203
  · rw [if_pos c3]
    rcases c3 with c | c
    · exact ⟨_, h2 c (not_le.1 c1), rfl⟩
    · exact ⟨_, h3 (not_le.1 c2) c, rfl⟩
  · rw [if_neg c3]
    push Not at c3
    exact ⟨_, h5 c3.2 c3.1, rfl⟩

/-- What the library tells about a number is what the specification says. -/
theorem tells_sim [Build] {lm : Libm} (hl : LibmOK lm) (lay : ℕ → Bin → Buf) {w : World} {a : Bin} {v : Val} (ha : Represents a v) {act : Act}
    {i : ℕ} (hs : act.subject = some i) (hw : w.get i = .ok a) (hty : ∀ ty, act = .toInt ty i → ty ∈ Convert.types)
    (hb : act = .bytes i → v ≠ .nan) : ∃ ans, callApi lm lay w act = .ok (ans, w) ∧ Tells act v ans := by
  have key : ∀ {α : Type} {m : M α} {f : α → Answer} {o : α}, m = .ok o → tell w (do let o ← m; pure (f o)) = .ok (f o, w) := by
    rintro α m f o rfl; rfl
  cases v with
  | nan =>
    change IsNaN a at ha
    obtain ⟨h1, h2, h3, h4, -⟩ := C24_nan_accessors ha
    cases act <;> cases hs <;> simp only [callApi, hw, bind_ok] <;> first
    | exact ⟨_, key h1, .isNan⟩
    | exact ⟨_, key h3, .isNegativeNan⟩
    | exact ⟨_, key h4, .isPositiveNan⟩
    | exact ⟨_, key h2, .scaleNan⟩
    | exact ⟨_, key (C05_display_nan ha), .textNan⟩
    | exact ⟨_, key (C35_nan lm ha _), .sciNan⟩
    | exact ⟨_, key (C23_normalize_nan ha), .normalizeNan⟩
    | exact ⟨_, key (C30_nan _ ha), .intNan⟩
    | (cases ‹Bool› with
      | true => exact ⟨_, key (f := fun o => Answer.float (Except.map seen o)) (C56_nan _ ha).1, .toFloatNan⟩
      | false => exact ⟨_, key (f := fun o => Answer.float (Except.map seen o)) (C56_nan _ ha).2, .toFloatNan⟩)
    | exact absurd rfl (hb rfl)
  | num x s =>
    change Holds a x s at ha
    obtain ⟨h1, h2, h3, h4⟩ := C20_accessors ha
    cases act with
    | isNan j => cases hs; simp only [callApi, hw, bind_ok]; exact ⟨_, key h3, .isNan⟩
    | isNegative j => cases hs; simp only [callApi, hw, bind_ok]; exact ⟨_, key h1, .isNegative⟩
    | isPositive j => cases hs; simp only [callApi, hw, bind_ok]; exact ⟨_, key h2, .isPositive⟩
    | scaleOf j => cases hs; simp only [callApi, hw, bind_ok]; exact ⟨_, key h4, .scale⟩
    | text j =>
      cases hs; simp only [callApi, hw, bind_ok]
      obtain ⟨n, rfl⟩ := Int.eq_ofNat_of_zero_le ha.bounds.2.1
      obtain ⟨N, hN, e⟩ := C05_display ha
      exact ⟨_, key e, .text hN⟩
    | normalize j =>
      cases hs; simp only [callApi, hw, bind_ok]
      obtain ⟨m, N, hN, hm, e⟩ := C23_normalize ha
      exact ⟨_, key e, .normalize hN hm⟩
    | toInt ty j =>
      cases hs; simp only [callApi, hw, bind_ok]
      obtain ⟨n, hn, e1, e2⟩ := C30_to_int (hty ty rfl) ha
      by_cases hr : ty.lo ≤ n ∧ n ≤ ty.hi
      · refine ⟨_, key (e1 hr), ?_⟩
        have := Tells.int (ty := ty) (i := i) (s := s) hn
        rwa [if_pos hr] at this
      · refine ⟨_, key (e2 hr), ?_⟩
        have := Tells.int (ty := ty) (i := i) (s := s) hn
        rwa [if_neg hr] at this
    | toFloat wide j =>
      cases hs; simp only [callApi, hw, bind_ok]
      cases wide with
      | true =>
        obtain ⟨f, e, hf⟩ := toF64_rounds hl.strtod ha
        have e' : tell w (do
            let o ← if true then Num.toF64 lm.strtod a else Num.toF32 lm.strtod a
            pure (Answer.float (o.map seen))) = .ok (.float (.ok (seen f)), w) := key (f := fun o => Answer.float (Except.map seen o)) (o := (Except.ok f : Except Convert.Err Convert.Float)) e
        refine ⟨_, e', ?_⟩
        rw [rounds_seen hf]
        exact .toF64
      | false =>
        obtain ⟨o, e, ho⟩ := toF32_seen hl.strtod ha
        have e' : tell w (do
            let o ← if false then Num.toF64 lm.strtod a else Num.toF32 lm.strtod a
            pure (Answer.float (o.map seen))) = .ok (.float (o.map seen), w) := key (f := fun o => Answer.float (Except.map seen o)) (o := o) e
        refine ⟨_, e', ?_⟩
        rw [ho]
        exact .toF32
    | bytes j =>
      cases hs; simp only [callApi, hw, bind_ok]
      obtain ⟨u, hu, rfl, hv, hd⟩ := ha
      exact ⟨_, by rw [C06_layout hu.storable]; rfl, .bytes hu hv hd⟩
    | sci c j =>
      cases hs; simp only [callApi, hw, bind_ok]
      by_cases hx : x = 0
      · subst hx
        exact ⟨_, key (C35_zero lm ha c), .sciZero⟩
      · rcases lt_or_ge |x| (10 ^ (-1001 : ℤ)) with hlt | hge
        · refine ⟨_, ?_, .sciTiny hx hlt⟩
          rw [C35_tiny_panics hl ha hx hlt c]; rfl
        · have hp : 0 < |x| := abs_pos.2 hx
          have e1 : (10:ℚ) ^ Int.log 10 |x| ≤ |x| := by exact_mod_cast Int.zpow_log_le_self (by norm_num) hp
          have e2 : |x| < (10:ℚ) ^ (Int.log 10 |x| + 1) := by exact_mod_cast Int.lt_zpow_succ_log_self (b := 10) (by norm_num) |x|
          have hE : -1001 ≤ Int.log 10 |x| := by
            have : (10:ℚ) ^ (-1001:ℤ) < 10 ^ (Int.log 10 |x| + 1) := lt_of_le_of_lt hge e2
            have := (zpow_lt_zpow_iff_right₀ (by norm_num : (1:ℚ) < 10)).1 this
            omega
          obtain ⟨m, p, e, hm, k1, k2, k3⟩ := C35_scientific hl ha hx e1 e2 hE c
          exact ⟨_, key e, .sci hx hge e1 e2 hm k1 k2 k3⟩
    | _ => cases hs

theorem parse_cases [Build] {s : Str} (hs : s.length < 2 ^ 29) :
    (∃ b v, Parse.fromStr s = .ok (.ok b) ∧ Represents b v ∧ LitExact s v) ∨ (Parse.fromStr s = .ok (.error .empty) ∧ White s) ∨
    (Parse.fromStr s = .ok (.error .invalid) ∧ Malformed s) ∨ (Parse.fromStr s = .ok (.error .overflow) ∧ OutOfRange s) := by
  obtain ⟨r, hr⟩ := C01_total hs
  obtain ⟨g1, g2, g3⟩ := C01_grammar hs
  cases r with
  | ok b =>
    obtain ⟨v, hv, hb⟩ := lit_complete hs hr
    exact .inl ⟨b, v, hr, hb, hv⟩
  | error e =>
    cases e with
    | empty => exact .inr (.inl ⟨hr, g1.1 hr⟩)
    | invalid => exact .inr (.inr (.inl ⟨hr, g2.1 hr⟩))
    | overflow =>
      refine .inr (.inr (.inr ⟨hr, ?_⟩))
      rcases g3.1 (.inr hr) with h | ⟨neg, int, frac, exp, h⟩ | h
      · obtain ⟨r, e, -⟩ := C01_nan h
        rw [hr] at e; cases e
      · exact .inr ⟨neg, int, frac, exp, h, (C03_parse_range hs h).2.1 hr⟩
      · exact .inl h

theorem outOfRange_sound [Build] {s : Str} (hs : s.length < 2 ^ 29) (h : OutOfRange s) : Parse.fromStr s = .ok (.error .overflow) := by
  rcases h with h | ⟨neg, int, frac, exp, h, hr⟩
  · exact Parse.fromStr_huge h
  · exact (C03_parse_range hs h).2.2 hr

theorem float_short {P : ℕ} (hP : P = 6 ∨ P = 15) (neg : Bool) {q : ℚ} (hq : FloatRange q) : (printfG P neg q).length < 2 ^ 29 :=
  lt_of_le_of_lt (C39_printf_short hP neg hq) (by norm_num)

theorem Inv.take [Build] {w : World} {l : List Slot} (hI : Inv w l) {i : Nat} {v : Val} (hl : l[i]? = some (.val v)) (b : Bool) :
    ∃ w', w.take b i = .ok w' ∧ Inv w' (taken b i l) := by
  cases b with
  | false => exact ⟨w, rfl, hI⟩
  | true =>
    obtain ⟨w', -, e, hI', -⟩ := hI.drop hl
    exact ⟨w', e, hI'⟩

theorem Inv.moveLast [Build] {w : World} {l : List Slot} {s : Slot} (hI : Inv w (l ++ [s])) {i : Nat} (hl : l[i]? = some .gone) :
    Inv (w.moveLast i) (l.set i s) := by
  obtain ⟨h, regs⟩ := w
  have hlen := hI.len
  simp only [List.length_append, List.length_cons, List.length_nil] at hlen
  obtain ⟨rs, r, rfl⟩ : ∃ rs r, regs = rs ++ [r] := by
    rcases List.eq_nil_or_concat regs with rfl | ⟨rs, r, rfl⟩
    · simp at hlen
    · exact ⟨rs, r, by simp⟩
  simp only [List.length_append, List.length_cons, List.length_nil] at hlen
  have hrl : rs.length = l.length := by omega
  have hi : i < l.length := (List.getElem?_eq_some_iff.1 hl).1
  have hir : i < rs.length := by omega
  have hgone : rs[i]? = some none := by
    have h1 : (rs ++ [r])[i]? = some rs[i] := by rw [List.getElem?_append_left hir]; exact List.getElem?_eq_getElem hir
    have hs := hI.slot h1 (by rw [List.getElem?_append_left hi]; exact hl)
    rw [List.getElem?_eq_getElem hir]
    cases e : rs[i] with
    | none => rfl
    | some x => rw [e] at hs; exact hs.elim
  have e : World.moveLast ⟨h, rs ++ [r]⟩ i = ⟨h, rs.set i r⟩ := by simp [World.moveLast]
  rw [e]
  have hr : (rs ++ [r])[rs.length]? = some r := by simp
  have hs : (l ++ [s])[rs.length]? = some s := by simp [hrl]
  -- where a variable after the move was before
  have old : ∀ {k : Nat} {z : Option HBuf}, (rs.set i r)[k]? = some z → (rs ++ [r])[if k = i then rs.length else k]? = some z := by
    intro k z hk
    by_cases hki : k = i
    · subst hki
      rw [List.getElem?_set_self hir] at hk
      rw [if_pos rfl, hr]; exact hk
    · rw [List.getElem?_set_ne (Ne.symm hki)] at hk
      rw [if_neg hki, List.getElem?_append_left (List.getElem?_eq_some_iff.1 hk).1]; exact hk
  refine ⟨hI.wf, by simp [hrl], ?_, ?_, ?_, hI.sizes⟩
  · intro k z t hz ht
    have hz' := old hz
    refine hI.slot hz' ?_
    by_cases hki : k = i
    · subst hki
      rw [List.getElem?_set_self hi] at ht
      rw [if_pos rfl, hs]; exact ht
    · rw [List.getElem?_set_ne (Ne.symm hki)] at ht
      rw [if_neg hki, List.getElem?_append_left (List.getElem?_eq_some_iff.1 ht).1]; exact ht
  · intro k k' x y q hx hy h1 h2
    have hk := hI.inj (old hx) (old hy) h1 h2
    have b1 := (List.getElem?_eq_some_iff.1 hx).1
    have b2 := (List.getElem?_eq_some_iff.1 hy).1
    simp only [List.length_set] at b1 b2
    split at hk <;> split at hk <;> omega
  · intro q
    rw [hI.noleak q]
    constructor
    · rintro ⟨k, x, hx, hq⟩
      change (rs ++ [r])[k]? = _ at hx
      by_cases hk : k < rs.length
      · rw [List.getElem?_append_left hk] at hx
        have hki : i ≠ k := by rintro rfl; rw [hgone] at hx; cases hx
        exact ⟨k, x, by rw [List.getElem?_set_ne hki]; exact hx, hq⟩
      · have : k = rs.length := by
          have := (List.getElem?_eq_some_iff.1 hx).1
          simp only [List.length_append, List.length_cons, List.length_nil] at this
          omega
        subst this
        rw [hr] at hx
        exact ⟨i, x, by rw [List.getElem?_set_self hir]; exact hx, hq⟩
    · rintro ⟨k, x, hx, hq⟩
      exact ⟨_, x, old hx, hq⟩

theorem operator_sim [Build] {lay : ℕ → Bin → Buf} (hg : GoodLayout lay) {w : World} {l : List Slot} (hI : Inv w l) {op : Op2}
    (hop : op ≠ .divTrunc) {i j : ℕ} {u v : Val} (hu : l[i]? = some (.val u)) (hv : l[j]? = some (.val v)) {a b : Bin}
    (ha : Represents a u) (hb : Represents b v) :
    ∃ ans l' w', fresh lay w (callOp op a b) = .ok (ans, w') ∧ Step (.operator op i j) l ans l' ∧ Inv w' l' ∧ ∃ t, l' = l ++ t := by
  rcases callOp_sim op hop ha hb with ⟨c, r, e, hc, hr⟩ | ⟨hn, hz, e⟩ | ⟨hn, hz, e⟩
  · exact ⟨_, _, _, fresh_ok e, .operator hu hv hr, hI.put hg hc, _, rfl⟩
  · exact ⟨_, _, _, by rw [e]; rfl, .operatorAssert hu hv hz.1 hz.2, hI, [], by simp⟩
  · exact ⟨_, _, _, by rw [e]; rfl, .operatorPanic hu hv hn hz, hI, [], by simp⟩

theorem assign_sim [Build] {lay : ℕ → Bin → Buf} (hg : GoodLayout lay) {w : World} {l : List Slot} (hI : Inv w l) {op : Op2}
    (hop : op ≠ .divTrunc) {i j : ℕ} (hij : i ≠ j) {u v : Val} (hu : l[i]? = some (.val u)) (hv : l[j]? = some (.val v)) {a b : Bin}
    (ha : Represents a u) (hb : Represents b v) :
    ∃ ans l' w', w.assign lay i (callOp op a b) = .ok (ans, w') ∧ Step (.assign op i j) l ans l' ∧ Inv w' l' ∧ l'[j]? = some (.val v) := by
  rcases callOp_sim op hop ha hb with ⟨c, r, e, hc, hr⟩ | ⟨hn, hz, e⟩ | ⟨hn, hz, e⟩
  · have hi : i < l.length := (List.getElem?_eq_some_iff.1 hu).1
    have hu' : (l ++ [.val r])[i]? = some (.val u) := by rw [List.getElem?_append_left hi]; exact hu
    obtain ⟨w', -, e', hI', -⟩ := (hI.put hg hc).drop hu'
    rw [List.set_append_left _ _ hi] at hI'
    have hI'' := hI'.moveLast (List.getElem?_set_self hi)
    rw [List.set_set] at hI''
    refine ⟨.unit, _, w'.moveLast i, ?_, .assign hu hv hr, hI'', ?_⟩
    · simp only [World.assign, e, bind_ok, e']
      rfl
    · rw [List.getElem?_set_ne hij]; exact hv
  · exact ⟨_, _, _, by rw [e]; rfl, .assignFail (.operatorAssert hu hv hz.1 hz.2) (by rintro ⟨⟩), hI, hv⟩
  · exact ⟨_, _, _, by rw [e]; rfl, .assignFail (.operatorPanic hu hv hn hz) (by rintro ⟨⟩), hI, hv⟩

/-- Every legal call returns without fault, with an answer the specification allows, and leaves memory in order. -/
theorem callApi_sim [Build] {lm : Libm} (hlm : LibmOK lm) {lay : ℕ → Bin → Buf} (hg : GoodLayout lay) {w : World} {l : List Slot} (hI : Inv w l)
    {act : Act} (ha : act.Legal l) : ∃ ans l' w', callApi lm lay w act = .ok (ans, w') ∧ Step act l ans l' ∧ Inv w' l' := by
  have looks : ∀ {i : ℕ}, act.subject = some i → Spec.Live l i → (∀ ty, act = .toInt ty i → ty ∈ Convert.types) →
      (act = .bytes i → ∃ x s, l[i]? = some (.val (.num x s))) →
      ∃ ans l' w', callApi lm lay w act = .ok (ans, w') ∧ Step act l ans l' ∧ Inv w' l' := by
    rintro i hs ⟨v, hv⟩ hty hb
    obtain ⟨a, ea, hr⟩ := hI.look hv
    obtain ⟨ans, e, ht⟩ := tells_sim hlm lay hr hs ea hty (by
      rintro h rfl
      obtain ⟨x, s, h⟩ := hb h
      rw [hv] at h; cases h)
    exact ⟨ans, l, w, e, .look hs hv ht, hI⟩
  have order : ∀ {i j : ℕ} {u v : Val}, l[i]? = some (.val u) → l[j]? = some (.val v) → ∃ a b, w.get i = .ok a ∧ w.get j = .ok b ∧
      Num.cmp a b = .ok (compare u.key v.key) ∧ Num.eq a b = .ok (decide (u.key = v.key)) ∧ Num.lt a b = .ok (decide (u.key < v.key)) ∧
      Num.le a b = .ok (decide (u.key ≤ v.key)) ∧ Valid a ∧ Valid b := by
    intro i j u v hu hv
    obtain ⟨a, ea, hra⟩ := hI.look hu
    obtain ⟨b, eb, hrb⟩ := hI.look hv
    obtain ⟨h1, -, h3, h4, h5⟩ := C21_cmp_is_value_order (represents_denotes hra) (represents_denotes hrb)
    exact ⟨a, b, ea, eb, h1, h3, h4, h5, represents_valid hra, represents_valid hrb⟩
  cases act with
  | parse s =>
    rcases parse_cases ha with ⟨b, v, e, hb, hv⟩ | ⟨e, h⟩ | ⟨e, h⟩ | ⟨e, h⟩ <;> simp only [callApi, e]
    · exact ⟨_, _, _, rfl, .parse hv, hI.put hg hb⟩
    · exact ⟨_, _, _, rfl, .parseEmpty h, hI⟩
    · exact ⟨_, _, _, rfl, .parseInvalid h, hI⟩
    · exact ⟨_, _, _, rfl, .parseOverflow h, hI⟩
  | int ty n =>
    obtain ⟨b, e, hb⟩ := C29_from_int ha.1 ha.2
    exact ⟨_, _, _, fresh_ok e, .int, hI.put hg (v := .num n 0) hb⟩
  | factorial n =>
    rcases le_or_gt n 32177 with hn | hn
    · obtain ⟨r, e, hr⟩ : ∃ r, Num.factorial n = .ok (some r) ∧ Holds r (n.toNat.factorial : ℕ) 0 := by
        rcases le_or_gt n 1 with h1 | h1
        · obtain ⟨r, e, hr⟩ := C31_factorial_negative h1
          have : n.toNat.factorial = 1 := Nat.factorial_eq_one.2 (by omega)
          exact ⟨r, e, by rw [this]; simpa using hr⟩
        · obtain ⟨r, e, hr⟩ := C31_factorial_exact (n := n.toNat) (by omega)
          rw [Int.toNat_of_nonneg (by omega)] at e
          exact ⟨r, e, hr⟩
      exact ⟨_, _, _, freshOption_some e, .factorial hn, hI.put hg (v := .num _ 0) hr⟩
    · exact ⟨_, _, _, freshOption_none ((C31_factorial_none_iff n).2 hn), .factorialNone hn, hI⟩
  | op1 op i =>
    obtain ⟨u, hu⟩ := ha
    obtain ⟨a, ea, hr⟩ := hI.look hu
    simp only [callApi, ea, bind_ok]
    rcases call1_sim op hr with ⟨b, v, e, hb, hv⟩ | ⟨e, hn⟩
    · exact ⟨_, _, _, fresh_ok e, .op1 hu hv, hI.put hg hb⟩
    · exact ⟨_, _, _, by rw [e]; rfl, .op1Panic hu hn, hI⟩
  | checked op i j =>
    obtain ⟨⟨u, hu⟩, v, hv⟩ := ha
    obtain ⟨a, ea, hra⟩ := hI.look hu
    obtain ⟨b, eb, hrb⟩ := hI.look hv
    simp only [callApi, ea, eb, bind_ok]
    rcases call2_sim op hra hrb with ⟨c, r, e, hc, hr⟩ | ⟨hn, hz, e⟩ | ⟨hn, hz, e⟩
    · exact ⟨_, _, _, freshOption_some e, .checked hu hv hr, hI.put hg hc⟩
    · exact ⟨_, _, _, by rw [e]; rfl, .checkedAssert hu hv hz.1 hz.2, hI⟩
    · exact ⟨_, _, _, freshOption_none e, .checkedNone hu hv hn hz, hI⟩
  | operator op i j =>
    obtain ⟨hop, ⟨u, hu⟩, v, hv⟩ := ha
    obtain ⟨a, ea, hra⟩ := hI.look hu
    obtain ⟨b, eb, hrb⟩ := hI.look hv
    obtain ⟨ans, l', w', e, hs, hI', -⟩ := operator_sim hg hI hop hu hv hra hrb
    exact ⟨ans, l', w', by simp only [callApi, ea, eb, bind_ok, e], hs, hI'⟩
  | zero =>
    have hb : Holds Bin.zero 0 0 := ⟨Var.zero, zero_canonical, Bin.encode_zero.symm, by simp [value, Var.zero], rfl⟩
    exact ⟨_, _, _, fresh_ok Num.zero_ok, .zero, hI.put hg (v := .num 0 0) hb⟩
  | nan => exact ⟨_, _, _, fresh_ok Num.nan_ok, .nan, hI.put hg (v := .nan) nan_isNaN⟩
  | bool b =>
    obtain ⟨r, e, hb⟩ := C29_from_bool b
    exact ⟨_, _, _, fresh_ok e, .bool, hI.put hg (v := .num _ 0) hb⟩
  | float wide f =>
    cases f with
    | nan =>
      refine ⟨_, _, _, ?_, .floatNan, hI.put hg (v := .nan) nan_isNaN⟩
      simp only [callApi, (C39_nan_inf _ true).1]
      rfl
    | inf neg =>
      refine ⟨_, _, _, ?_, .floatInf, hI⟩
      simp only [callApi, (C39_nan_inf _ neg).2]
      rfl
    | fin neg q =>
      have hP : precision wide = 6 ∨ precision wide = 15 := by cases wide <;> simp [precision]
      obtain ⟨b, s, e, hp, -⟩ := C39_finite hP neg (ha neg q rfl)
      obtain ⟨v, hv, hb⟩ := lit_complete (float_short hP neg (ha neg q rfl)) hp
      refine ⟨_, _, _, ?_, .float hv, hI.put hg hb⟩
      change caught w (do
        match ← Convert.ofFloat (precision wide) (.fin neg q) with
        | .ok a => pure (.number, w.put lay a)
        | .error e => pure (.refused e, w)) = _
      rw [e]
      rfl
  | operatorTake op left right i j =>
    obtain ⟨hop, ⟨u, hu⟩, ⟨v, hv⟩, hij⟩ := ha
    obtain ⟨a, ea, hra⟩ := hI.look hu
    obtain ⟨b, eb, hrb⟩ := hI.look hv
    obtain ⟨ans, l', w', e, hs, hI', t, ht⟩ := operator_sim hg hI hop hu hv hra hrb
    have hu' : l'[i]? = some (.val u) := by rw [ht, List.getElem?_append_left (List.getElem?_eq_some_iff.1 hu).1]; exact hu
    have hv' : l'[j]? = some (.val v) := by rw [ht, List.getElem?_append_left (List.getElem?_eq_some_iff.1 hv).1]; exact hv
    obtain ⟨w1, e1, hI1⟩ := hI'.take hv' right
    have fin : ∃ w2, w1.take left i = .ok w2 ∧ Inv w2 (taken left i (taken right j l')) := by
      cases left with
      | false => exact ⟨w1, rfl, hI1⟩
      | true =>
        refine hI1.take (v := u) ?_ true
        cases right with
        | false => exact hu'
        | true =>
          simp only [taken, if_true]
          rw [List.getElem?_set_ne (Ne.symm (hij (.inl rfl)))]; exact hu'
    obtain ⟨w2, e2, hI2⟩ := fin
    exact ⟨ans, _, w2, by simp only [callApi, ea, eb, bind_ok, e, e1, e2]; rfl, .operatorTake hs, hI2⟩
  | assign op i j =>
    obtain ⟨hop, ⟨u, hu⟩, ⟨v, hv⟩, hij⟩ := ha
    obtain ⟨a, ea, hra⟩ := hI.look hu
    obtain ⟨b, eb, hrb⟩ := hI.look hv
    obtain ⟨ans, l', w', e, hs, hI', -⟩ := assign_sim hg hI hop hij hu hv hra hrb
    exact ⟨ans, _, w', by simp only [callApi, ea, eb, bind_ok, e], hs, hI'⟩
  | assignTake op i j =>
    obtain ⟨hop, ⟨u, hu⟩, ⟨v, hv⟩, hij⟩ := ha
    obtain ⟨a, ea, hra⟩ := hI.look hu
    obtain ⟨b, eb, hrb⟩ := hI.look hv
    obtain ⟨ans, l', w', e, hs, hI', hv'⟩ := assign_sim hg hI hop hij hu hv hra hrb
    obtain ⟨w1, e1, hI1⟩ := hI'.take hv' true
    exact ⟨ans, _, w1, by simp only [callApi, ea, eb, bind_ok, e, e1]; rfl, .assignTake hs, hI1⟩
  | reread human i =>
    obtain ⟨v, hv⟩ := ha
    obtain ⟨a, ea, hr⟩ := hI.look hv
    simp only [callApi, ea, bind_ok]
    obtain ⟨d, r, ed, er, hr'⟩ : ∃ d r, Num.serialize human a = .ok d ∧ Num.deserialize d = .ok (some r) ∧ Represents r v := by
      cases v with
      | nan => exact C41_serde_nan hr human
      | num x s =>
        obtain ⟨d, e1, e2⟩ := C41_serde (x := x) (s := s) hr human
        exact ⟨d, a, e1, e2, hr⟩
    exact ⟨_, _, _, freshOption_some (by rw [ed, bind_ok, er]), .reread hv, hI.put hg hr'⟩
  | clone i =>
    obtain ⟨v, hv⟩ := ha
    obtain ⟨w', e, hI'⟩ := step_inv hI (.copy hv)
    exact ⟨_, _, w', by simp only [callApi, e, bind_ok]; rfl, .clone hv, hI'⟩
  | mutate op i =>
    obtain ⟨hop, ⟨x, s, hx⟩ | ⟨hx, hnt⟩⟩ := ha
    · rcases callMut_num hI hx op hop with ⟨z, ans, y, h, y', t, hz, e, rfl, hex, hI', -⟩ | ⟨z, ans, y, h, hz, e, rfl, hex, hI', -⟩
      · exact ⟨_, _, _, by simp only [callApi, hz, e, bind_ok]; rfl, .mutate hx hex, hI'⟩
      · exact ⟨_, _, _, by simp only [callApi, hz, e, bind_ok]; rfl, .mutateFail hx hex, hI'⟩
    · obtain ⟨z, y, h, hz, e, hI', -⟩ := callMut_nan hI hx op hnt
      exact ⟨_, _, _, by simp only [callApi, hz, e, bind_ok]; rfl, .mutateNan hx hnt, hI'⟩
  | drop i =>
    rcases ha with ⟨v, hv⟩ | hv
    · obtain ⟨w', -, e, hI', -⟩ := hI.drop hv
      exact ⟨_, _, w', by simp only [callApi, e, bind_ok]; rfl, .drop, hI'⟩
    · obtain ⟨w', e, -, hI'⟩ := hI.dropNull hv
      exact ⟨_, _, w', by simp only [callApi, e, bind_ok]; rfl, .drop, hI'⟩
  | cmp i j =>
    obtain ⟨⟨u, hu⟩, v, hv⟩ := ha
    obtain ⟨a, b, ea, eb, h1, -⟩ := order hu hv
    exact ⟨_, _, _, by simp only [callApi, ea, eb, bind_ok, h1]; rfl, .cmp hu hv, hI⟩
  | eq i j =>
    obtain ⟨⟨u, hu⟩, v, hv⟩ := ha
    obtain ⟨a, b, ea, eb, -, h1, -⟩ := order hu hv
    exact ⟨_, _, _, by simp only [callApi, ea, eb, bind_ok, h1]; rfl, .eq hu hv, hI⟩
  | lt i j =>
    obtain ⟨⟨u, hu⟩, v, hv⟩ := ha
    obtain ⟨a, b, ea, eb, -, -, h1, -⟩ := order hu hv
    exact ⟨_, _, _, by simp only [callApi, ea, eb, bind_ok, h1]; rfl, .lt hu hv, hI⟩
  | le i j =>
    obtain ⟨⟨u, hu⟩, v, hv⟩ := ha
    obtain ⟨a, b, ea, eb, -, -, -, h1, -⟩ := order hu hv
    exact ⟨_, _, _, by simp only [callApi, ea, eb, bind_ok, h1]; rfl, .le hu hv, hI⟩
  | sameHash i j =>
    obtain ⟨⟨u, hu⟩, v, hv⟩ := ha
    obtain ⟨a, b, ea, eb, hc, -, -, -, va, vb⟩ := order hu hv
    obtain ⟨x, y, ex, ey, hxy⟩ := C22_hash_iff_eq va vb
    have hd : decide (x = y) = decide (u.key = v.key) := by
      refine decide_eq_decide.2 ?_
      rw [hxy, hc]
      simp
    refine ⟨_, _, _, ?_, .sameHash hu hv, hI⟩
    simp only [callApi, ea, eb, bind_ok, ex, ey, ← hd]
    rfl
  | isNan i => exact looks rfl ha (fun _ h => by cases h) (fun h => by cases h)
  | isNegative i => exact looks rfl ha (fun _ h => by cases h) (fun h => by cases h)
  | isPositive i => exact looks rfl ha (fun _ h => by cases h) (fun h => by cases h)
  | scaleOf i => exact looks rfl ha (fun _ h => by cases h) (fun h => by cases h)
  | text i => exact looks rfl ha (fun _ h => by cases h) (fun h => by cases h)
  | sci c i => exact looks rfl ha (fun _ h => by cases h) (fun h => by cases h)
  | normalize i => exact looks rfl ha (fun _ h => by cases h) (fun h => by cases h)
  | toInt ty i => exact looks rfl ha.2 (fun _ h => by cases h; exact ha.1) (fun h => by cases h)
  | toFloat wide i => exact looks rfl ha (fun _ h => by cases h) (fun h => by cases h)
  | bytes i =>
    obtain ⟨x, s, h⟩ := ha
    exact looks rfl ⟨_, h⟩ (fun _ h => by cases h) (fun _ => ⟨x, s, h⟩)

/-! ## The specification is deterministic -/

theorem op1_det {op : Op1} {u v v' : Val} (h : op.Exact u v) (h' : op.Exact u v') : v = v' := by
  cases u with
  | nan => exact h.trans h'.symm
  | num x s => exact h.2.trans h'.2.symm

theorem op2_det {op : Op2} {u v r r' : Val} (h : op.Exact u v r) (h' : op.Exact u v r') : r = r' := by
  cases u with
  | nan => cases v <;> exact h.trans h'.symm
  | num x s =>
    cases v with
    | nan => exact h.trans h'.symm
    | num y t =>
      obtain ⟨p, e, -, rfl⟩ := h
      obtain ⟨q, e', -, rfl⟩ := h'
      rw [e] at e'; cases e'; rfl

theorem zeroScale_not {op : Op2} {u v r : Val} (hz : ZeroScale op u v) : ¬ op.Exact u v r := by
  cases op <;> cases u <;> cases v <;> try exact hz.elim
  rintro ⟨p, e, h, -⟩
  cases e
  exact absurd h.2 (not_le.2 hz.2)

theorem pow10_unique {x : ℚ} {E E' : ℤ} (h1 : 10 ^ E ≤ x) (h2 : x < 10 ^ (E + 1)) (h1' : 10 ^ E' ≤ x) (h2' : x < 10 ^ (E' + 1)) : E = E' := by
  have a := (zpow_lt_zpow_iff_right₀ (by norm_num : (1:ℚ) < 10)).1 (lt_of_le_of_lt h1 h2')
  have b := (zpow_lt_zpow_iff_right₀ (by norm_num : (1:ℚ) < 10)).1 (lt_of_le_of_lt h1' h2)
  omega

theorem mantissa_unique {E : ℤ} {m p m' p' : ℕ} (h : (m:ℚ) * 10 ^ (E - p) = m' * 10 ^ (E - p')) (hm : m % 10 ≠ 0) (hm' : m' % 10 ≠ 0) :
    m = m' ∧ p = p' := by
  have key : ∀ {m p m' p' : ℕ}, (m:ℚ) * 10 ^ (E - p) = m' * 10 ^ (E - p') → m' % 10 ≠ 0 → p ≤ p' → m = m' ∧ p = p' := by
    intro m p m' p' h hm' hp
    obtain ⟨k, rfl⟩ := Nat.exists_eq_add_of_le hp
    have e : (m:ℚ) * 10 ^ k = m' := by
      have h0 : (10:ℚ) ^ (E - (p + k : ℕ)) ≠ 0 := by positivity
      apply mul_right_cancel₀ h0
      rw [← h, mul_assoc, ← zpow_natCast, ← zpow_add₀ (by norm_num)]
      congr 2
      push_cast; ring
    have e' : m * 10 ^ k = m' := by exact_mod_cast e
    cases k with
    | zero => simpa using e'
    | succ k => exact absurd (by rw [← e', pow_succ, ← mul_assoc]; exact Nat.mul_mod_left _ _) hm'
  rcases le_total p p' with hp | hp
  · exact key h hm' hp
  · obtain ⟨a, b⟩ := key h.symm hm hp
    exact ⟨a.symm, b.symm⟩

theorem hasScale_of {x : ℚ} {m N : ℕ} (h : |x| * 10 ^ m = N) : HasScale x m := by
  rcases abs_choice x with e | e
  · exact ⟨N, by rw [e] at h; push_cast; exact_mod_cast h⟩
  · exact ⟨-N, by rw [e] at h; push_cast; rw [← h]; push_cast; ring_nf; simp⟩

theorem tells_det [Build] {act : Act} {v : Val} {a a' : Answer} (h : Tells act v a) (h' : Tells act v a') : a = a' := by
  cases h <;> cases h' <;> try rfl
  case text.text h _ h' => 
    rw [h] at h'
    have := (Nat.cast_injective (R := ℚ)) h'
    rw [this]
  case normalize.normalize m N h1 h2 m' N' h1' h2' =>
    have hm : m = m' := le_antisymm (h2 _ (hasScale_of h1')) (h2' _ (hasScale_of h1))
    subst hm
    rw [h1] at h1'
    rw [(Nat.cast_injective (R := ℚ)) h1']
  case sci.sci c x s E m p _ _ a1 a2 a3 _ _ a4 E' m' p' _ _ b4 _ _ b1 b2 b3 =>
    have hE := pow10_unique a1 a2 b1 b2
    subst hE
    obtain ⟨rfl, rfl⟩ := mantissa_unique (a3.symm.trans b3) a4 b4
    rfl
  case int.int a _ b =>
    rw [a] at b
    rw [(Int.cast_injective (α := ℚ)) b]
  case bytes.bytes a1 a2 a3 _ b1 b2 b3 =>
    rw [a1.unique b1 (a2.trans b2.symm) (a3.trans b3.symm)]
  all_goals first
  | exact absurd rfl ‹(0:ℚ) ≠ 0›
  | exact absurd ‹(10:ℚ) ^ (-1001:ℤ) ≤ _› (not_le.2 ‹_›)

theorem val_inj {l : List Slot} {i : ℕ} {u v : Val} (h : l[i]? = some (.val u)) (h' : l[i]? = some (.val v)) : u = v := by
  rw [h] at h'; cases h'; rfl

theorem three_det {op : Op2} {u v : Val} {Z : Prop} {f g : Answer} {l l1 l2 : List Slot} {a1 a2 : Answer}
    (h1 : (∃ r, op.Exact u v r ∧ a1 = .number ∧ l1 = l ++ [.val r]) ∨ ((∀ r, ¬ op.Exact u v r) ∧ ¬ Z ∧ a1 = f ∧ l1 = l) ∨
      ((∀ r, ¬ op.Exact u v r) ∧ Z ∧ a1 = g ∧ l1 = l))
    (h2 : (∃ r, op.Exact u v r ∧ a2 = .number ∧ l2 = l ++ [.val r]) ∨ ((∀ r, ¬ op.Exact u v r) ∧ ¬ Z ∧ a2 = f ∧ l2 = l) ∨
      ((∀ r, ¬ op.Exact u v r) ∧ Z ∧ a2 = g ∧ l2 = l)) : a1 = a2 ∧ l1 = l2 := by
  rcases h1 with ⟨r, h, rfl, rfl⟩ | ⟨h, z, rfl, rfl⟩ | ⟨h, z, rfl, rfl⟩ <;> rcases h2 with ⟨r', h', rfl, rfl⟩ | ⟨h', z', rfl, rfl⟩ | ⟨h', z', rfl, rfl⟩
  · rw [op2_det h h']; exact ⟨rfl, rfl⟩
  · exact absurd h (h' _)
  · exact absurd h (h' _)
  · exact absurd h' (h _)
  · exact ⟨rfl, rfl⟩
  · exact absurd z' z
  · exact absurd h' (h _)
  · exact absurd z z'
  · exact ⟨rfl, rfl⟩

theorem malformed_sound [Build] {s : Str} (hs : s.length < 2 ^ 29) (h : Malformed s) : Parse.fromStr s = .ok (.error .invalid) :=
  (C01_grammar hs).2.1.2 h

theorem white_sound [Build] {s : Str} (hs : s.length < 2 ^ 29) (h : White s) : Parse.fromStr s = .ok (.error .empty) :=
  (C01_grammar hs).1.2 h

theorem operator_step [Build] {op : Op2} {i j : ℕ} {u v : Val} {l l' : List Slot} {a : Answer} (hu : l[i]? = some (.val u))
    (hv : l[j]? = some (.val v)) (h : Step (.operator op i j) l a l') : (∃ r, op.Exact u v r ∧ a = .number ∧ l' = l ++ [.val r]) ∨
      ((∀ r, ¬ op.Exact u v r) ∧ ¬ (Build.debug = true ∧ ZeroScale op u v) ∧ a = .panic (op.message v) ∧ l' = l) ∨
      ((∀ r, ¬ op.Exact u v r) ∧ (Build.debug = true ∧ ZeroScale op u v) ∧ a = .assertion ∧ l' = l) := by
  cases h with
  | look h => cases h
  | operator h1 h2 h => cases val_inj h1 hu; cases val_inj h2 hv; exact .inl ⟨_, h, rfl, rfl⟩
  | operatorPanic h1 h2 h h' => cases val_inj h1 hu; cases val_inj h2 hv; exact .inr (.inl ⟨h, h', rfl, rfl⟩)
  | operatorAssert h1 h2 h h' =>
    cases val_inj h1 hu; cases val_inj h2 hv
    exact .inr (.inr ⟨fun _ => zeroScale_not h', ⟨h, h'⟩, rfl, rfl⟩)

theorem operator_det [Build] {op : Op2} {i j : ℕ} {l l1 l2 : List Slot} {a1 a2 : Answer} (hi : Spec.Live l i) (hj : Spec.Live l j)
    (h1 : Step (.operator op i j) l a1 l1) (h2 : Step (.operator op i j) l a2 l2) : a1 = a2 ∧ l1 = l2 := by
  obtain ⟨u, hu⟩ := hi
  obtain ⟨v, hv⟩ := hj
  exact three_det (operator_step hu hv h1) (operator_step hu hv h2)

theorem assign_det [Build] {op : Op2} {i j : ℕ} {l l1 l2 : List Slot} {a1 a2 : Answer} (hi : Spec.Live l i) (hj : Spec.Live l j)
    (h1 : Step (.assign op i j) l a1 l1) (h2 : Step (.assign op i j) l a2 l2) : a1 = a2 ∧ l1 = l2 := by
  have hne : ∀ {u v r a}, l[i]? = some (.val u) → l[j]? = some (.val v) → op.Exact u v r → Step (.operator op i j) l a l → a ≠ .number → False := by
    intro u v r a hu hv hr hs ha
    rcases operator_step hu hv hs with ⟨_, _, rfl, _⟩ | ⟨h, _⟩ | ⟨h, _⟩
    · exact ha rfl
    · exact h _ hr
    · exact h _ hr
  cases h1 with
  | look h => cases h
  | assign hu hv hr => cases h2 with
    | look h => cases h
    | assign hu' hv' hr' => cases val_inj hu hu'; cases val_inj hv hv'; rw [op2_det hr hr']; exact ⟨rfl, rfl⟩
    | assignFail hs ha => exact (hne hu hv hr hs ha).elim
  | assignFail hs ha => cases h2 with
    | look h => cases h
    | assign hu hv hr => exact (hne hu hv hr hs ha).elim
    | assignFail hs' ha' => exact operator_det hi hj hs hs'

theorem step_det [Build] {act : Act} {l l1 l2 : List Slot} {a1 a2 : Answer} (hl : act.Legal l) (h1 : Step act l a1 l1)
    (h2 : Step act l a2 l2) : a1 = a2 ∧ l1 = l2 := by
  cases act with
  | parse s =>
    have key : ∀ {a l'}, Step (.parse s) l a l' → (∃ b v, Parse.fromStr s = .ok (.ok b) ∧ Represents b v ∧ a = .number ∧ l' = l ++ [.val v]) ∨
        (∃ e, Parse.fromStr s = .ok (.error e) ∧ a = .rejected e ∧ l' = l) := by
      intro a l' h
      cases h with
      | parse h => obtain ⟨b, e, hb⟩ := lit_sound hl h; exact .inl ⟨b, _, e, hb, rfl, rfl⟩
      | parseEmpty h => exact .inr ⟨_, white_sound hl h, rfl, rfl⟩
      | parseInvalid h => exact .inr ⟨_, malformed_sound hl h, rfl, rfl⟩
      | parseOverflow h => exact .inr ⟨_, outOfRange_sound hl h, rfl, rfl⟩
      | look h => cases h
    rcases key h1 with ⟨b, v, e, hb, rfl, rfl⟩ | ⟨e, h, rfl, rfl⟩ <;> rcases key h2 with ⟨b', v', e', hb', rfl, rfl⟩ | ⟨e', h', rfl, rfl⟩
    · rw [e] at e'; cases e'
      rw [represents_unique hb hb']; exact ⟨rfl, rfl⟩
    · rw [e] at h'; cases h'
    · rw [h] at e'; cases e'
    · rw [h] at h'; cases h'; exact ⟨rfl, rfl⟩
  | int ty n =>
    have key : ∀ {a l'}, Step (.int ty n) l a l' → a = .number ∧ l' = l ++ [.val (.num n 0)] := by
      intro a l' h
      cases h with
      | int => exact ⟨rfl, rfl⟩
      | look h => cases h
    obtain ⟨rfl, rfl⟩ := key h1
    obtain ⟨rfl, rfl⟩ := key h2
    exact ⟨rfl, rfl⟩
  | factorial n =>
    cases h1 with
    | look h => cases h
    | factorial h => cases h2 with
      | look h => cases h
      | factorial h => exact ⟨rfl, rfl⟩
      | factorialNone h' => omega
    | factorialNone h => cases h2 with
      | look h => cases h
      | factorial h' => omega
      | factorialNone h' => exact ⟨rfl, rfl⟩
  | op1 op i =>
    cases h1 with
    | look h => cases h
    | op1 hu h => cases h2 with
      | look h => cases h
      | op1 hu' h' => cases val_inj hu hu'; rw [op1_det h h']; exact ⟨rfl, rfl⟩
      | op1Panic hu' h' => cases val_inj hu hu'; exact absurd h (h' _)
    | op1Panic hu h => cases h2 with
      | look h => cases h
      | op1 hu' h' => cases val_inj hu hu'; exact absurd h' (h _)
      | op1Panic hu' h' => exact ⟨rfl, rfl⟩
  | checked op i j =>
    obtain ⟨⟨u, hu⟩, v, hv⟩ := hl
    have key : ∀ {a l'}, Step (.checked op i j) l a l' → (∃ r, op.Exact u v r ∧ a = .number ∧ l' = l ++ [.val r]) ∨
        ((∀ r, ¬ op.Exact u v r) ∧ ¬ (Build.debug = true ∧ ZeroScale op u v) ∧ a = .none ∧ l' = l) ∨
        ((∀ r, ¬ op.Exact u v r) ∧ (Build.debug = true ∧ ZeroScale op u v) ∧ a = .assertion ∧ l' = l) := by
      intro a l' h
      cases h with
      | look h => cases h
      | checked h1 h2 h => cases val_inj h1 hu; cases val_inj h2 hv; exact .inl ⟨_, h, rfl, rfl⟩
      | checkedNone h1 h2 h h' => cases val_inj h1 hu; cases val_inj h2 hv; exact .inr (.inl ⟨h, h', rfl, rfl⟩)
      | checkedAssert h1 h2 h h' =>
        cases val_inj h1 hu; cases val_inj h2 hv
        exact .inr (.inr ⟨fun _ => zeroScale_not h', ⟨h, h'⟩, rfl, rfl⟩)
    exact three_det (key h1) (key h2)
  | operator op i j => exact operator_det hl.2.1 hl.2.2 h1 h2
  | zero =>
    cases h1 with
    | look h => cases h
    | zero => cases h2 with
      | look h => cases h
      | zero => exact ⟨rfl, rfl⟩
  | nan =>
    cases h1 with
    | look h => cases h
    | nan => cases h2 with
      | look h => cases h
      | nan => exact ⟨rfl, rfl⟩
  | bool b =>
    cases h1 with
    | look h => cases h
    | bool => cases h2 with
      | look h => cases h
      | bool => exact ⟨rfl, rfl⟩
  | float wide f =>
    cases h1 with
    | look h => cases h
    | @float _ neg q _ _ h => cases h2 with
      | look h => cases h
      | float h' =>
        have hs := float_short (P := precision wide) (by cases wide <;> simp [precision]) neg (hl neg q rfl)
        obtain ⟨b, e, hb⟩ := lit_sound hs h
        obtain ⟨b', e', hb'⟩ := lit_sound hs h'
        rw [e] at e'; cases e'
        rw [represents_unique hb hb']; exact ⟨rfl, rfl⟩
    | floatNan => cases h2 with
      | look h => cases h
      | floatNan => exact ⟨rfl, rfl⟩
    | floatInf => cases h2 with
      | look h => cases h
      | floatInf => exact ⟨rfl, rfl⟩
  | operatorTake op left right i j =>
    cases h1 with
    | look h => cases h
    | operatorTake h => cases h2 with
      | look h => cases h
      | operatorTake h' =>
        obtain ⟨rfl, rfl⟩ := operator_det hl.2.1 hl.2.2.1 h h'
        exact ⟨rfl, rfl⟩
  | assign op i j => exact assign_det hl.2.1 hl.2.2.1 h1 h2
  | assignTake op i j =>
    cases h1 with
    | look h => cases h
    | assignTake h => cases h2 with
      | look h => cases h
      | assignTake h' =>
        obtain ⟨rfl, rfl⟩ := assign_det hl.2.1 hl.2.2.1 h h'
        exact ⟨rfl, rfl⟩
  | reread b i =>
    cases h1 with
    | look h => cases h
    | reread hu => cases h2 with
      | look h => cases h
      | reread hu' => cases val_inj hu hu'; exact ⟨rfl, rfl⟩
  | clone i =>
    cases h1 with
    | look h => cases h
    | clone hu => cases h2 with
      | look h => cases h
      | clone hu' => cases val_inj hu hu'; exact ⟨rfl, rfl⟩
  | drop i =>
    cases h1 with
    | look h => cases h
    | drop => cases h2 with
      | look h => cases h
      | drop => exact ⟨rfl, rfl⟩
  | mutate op i =>
    cases h1 with
    | look h => cases h
    | mutate hu h => cases h2 with
      | look h => cases h
      | mutate hu' h' => cases val_inj hu hu'; rw [h] at h'; cases h'; exact ⟨rfl, rfl⟩
      | mutateFail hu' h' => cases val_inj hu hu'; rw [h] at h'; cases h'
      | mutateNan hu' h' => cases val_inj hu hu'
    | mutateFail hu h => cases h2 with
      | look h => cases h
      | mutate hu' h' => cases val_inj hu hu'; rw [h] at h'; cases h'
      | mutateFail hu' h' => exact ⟨rfl, rfl⟩
      | mutateNan hu' h' => cases val_inj hu hu'
    | mutateNan hu h => cases h2 with
      | look h => cases h
      | mutate hu' h' => cases val_inj hu hu'
      | mutateFail hu' h' => cases val_inj hu hu'
      | mutateNan hu' h' => exact ⟨rfl, rfl⟩
  | cmp i j =>
    cases h1 with
    | look h => cases h
    | cmp a b => cases h2 with
      | look h => cases h
      | cmp a' b' => cases val_inj a a'; cases val_inj b b'; exact ⟨rfl, rfl⟩
  | eq i j =>
    cases h1 with
    | look h => cases h
    | eq a b => cases h2 with
      | look h => cases h
      | eq a' b' => cases val_inj a a'; cases val_inj b b'; exact ⟨rfl, rfl⟩
  | lt i j =>
    cases h1 with
    | look h => cases h
    | lt a b => cases h2 with
      | look h => cases h
      | lt a' b' => cases val_inj a a'; cases val_inj b b'; exact ⟨rfl, rfl⟩
  | le i j =>
    cases h1 with
    | look h => cases h
    | le a b => cases h2 with
      | look h => cases h
      | le a' b' => cases val_inj a a'; cases val_inj b b'; exact ⟨rfl, rfl⟩
  | sameHash i j =>
    cases h1 with
    | look h => cases h
    | sameHash a b => cases h2 with
      | look h => cases h
      | sameHash a' b' => cases val_inj a a'; cases val_inj b b'; exact ⟨rfl, rfl⟩
  | _ =>
    cases h1 with
    | look hs hv ht => cases h2 with
      | look hs' hv' ht' =>
        cases hs; cases hs'
        cases val_inj hv hv'
        exact ⟨tells_det ht ht', rfl⟩

theorem play_det [Build] {c : Client} {n : ℕ} : ∀ {l h o1 o2}, c.Legal l h → Play c n (l, h) o1 → Play c n (l, h) o2 → o1 = o2 := by
  induction n with
  | zero => intro l h o1 o2 _ h1 h2; cases h1; cases h2; rfl
  | succ n ih =>
    intro l h o1 o2 hc h1 h2
    cases h1 with
    | stop e1 => cases h2 with
      | stop e2 => rfl
      | step e2 => rw [e1] at e2; cases e2
    | step e1 s1 p1 => cases h2 with
      | stop e2 => rw [e1] at e2; cases e2
      | step e2 s2 p2 =>
        rw [e1] at e2; cases e2
        obtain ⟨rfl, rfl⟩ := step_det (hc 0 _ _ _ .zero e1) s1 s2
        exact ih (fun m l' h' act hp => hc (m + 1) l' h' act (.step e1 s1 hp)) p1 p2

theorem play_sim [Build] {lm : Libm} (hlm : LibmOK lm) {lay : ℕ → Bin → Buf} (hg : GoodLayout lay) {c : Client} {n : ℕ} :
    ∀ {w l h}, Inv w l → c.Legal l h → ∃ w' l' h', playApi lm lay c n (w, h) = .ok (w', h') ∧ Play c n (l, h) (l', h') ∧ Inv w' l' := by
  induction n with
  | zero => intro w l h hI _; exact ⟨w, l, h, rfl, .zero, hI⟩
  | succ n ih =>
    intro w l h hI hc
    cases e : c h with
    | none => exact ⟨w, l, h, by simp only [playApi, e]; rfl, .stop e, hI⟩
    | some act =>
      obtain ⟨ans, l', w', e1, hs, hI'⟩ := callApi_sim hlm hg hI (hc 0 _ _ _ .zero e)
      obtain ⟨w'', l'', h'', e2, hp, hI''⟩ := ih hI' (fun m l' h' act hp => hc (m + 1) l' h' act (.step e hs hp))
      exact ⟨w'', l'', h'', by simp only [playApi, e, e1, bind_ok, e2], .step e hs hp, hI''⟩

/-! ## The property -/

/-- C61: the specification determines the answer to every legal call, and what the program owns then. -/
theorem C61_deterministic [Build] {act : Act} {l l1 l2 : List Slot} {a1 a2 : Answer} (hl : act.Legal l) (h1 : Step act l a1 l1)
    (h2 : Step act l a2 l2) : a1 = a2 ∧ l1 = l2 := step_det hl h1 h2

/-- C61: a program that makes legal calls, each chosen from the answers so far, runs without fault on the library; it sees exactly the
answers the specification determines; and afterwards every number it owns is the number of the specification, in an allocation of its own,
and nothing else is allocated. -/
theorem C61_client [Build] {lm : Libm} (hlm : LibmOK lm) {lay : ℕ → Bin → Buf} (hg : GoodLayout lay) {c : Client} (hc : c.Legal [] []) (n : ℕ) :
    ∃ w l h, playApi lm lay c n (start, []) = .ok (w, h) ∧ Play c n ([], []) (l, h) ∧
      (∀ l' h', Play c n ([], []) (l', h') → l' = l ∧ h' = h) ∧
      w.regs.length = l.length ∧ (∀ (i : ℕ) r s, w.regs[i]? = some r → l[i]? = some s → Agrees w.heap r s) ∧
      (∀ (i j : ℕ) x y q, w.regs[i]? = some (some x) → w.regs[j]? = some (some y) → x.ptr = some q → y.ptr = some q → i = j) ∧
      (∀ q, w.heap.live q ≠ none ↔ ∃ (i : ℕ) (x : HBuf), w.regs[i]? = some (some x) ∧ x.ptr = some q) := by
  obtain ⟨w, l, h, e, hp, hI⟩ := play_sim hlm hg (n := n) Inv.start hc
  refine ⟨w, l, h, e, hp, fun l' h' hp' => ?_, hI.len, fun i r s hr hs => (hI.slot hr hs).agrees,
    fun i j x y q h1 h2 h3 h4 => hI.inj h1 h2 h3 h4, hI.noleak⟩
  cases play_det hc hp hp'
  exact ⟨rfl, rfl⟩

/-- C61: what the program sees depends neither on the platform's floating-point functions nor on where in memory the library puts the
results. -/
theorem C61_platform_independent [Build] {lm lm' : Libm} (hlm : LibmOK lm) (hlm' : LibmOK lm') {lay lay' : ℕ → Bin → Buf} (hg : GoodLayout lay)
    (hg' : GoodLayout lay') {c : Client} (hc : c.Legal [] []) (n : ℕ) :
    ∃ w w' h, playApi lm lay c n (start, []) = .ok (w, h) ∧ playApi lm' lay' c n (start, []) = .ok (w', h) := by
  obtain ⟨w, l, h, e, hp, -⟩ := C61_client hlm hg hc n
  obtain ⟨w', l', h', e', -, hu, -⟩ := C61_client hlm' hg' hc n
  obtain ⟨-, rfl⟩ := hu _ _ hp
  exact ⟨w, w', _, e, e'⟩

theorem tells_release {e : Bool} {act : Act} {v : Val} {a : Answer} (h : @Tells ⟨true, e⟩ act v a) : @Tells ⟨false, e⟩ act v a := by
  let _ : Build := ⟨false, e⟩
  cases h
  case isNan => exact .isNan
  case isNegative => exact .isNegative
  case isNegativeNan => exact .isNegativeNan
  case isPositive => exact .isPositive
  case isPositiveNan => exact .isPositiveNan
  case scale => exact .scale
  case scaleNan => exact .scaleNan
  case text h => exact .text h
  case textNan => exact .textNan
  case normalize h1 h2 => exact .normalize h1 h2
  case normalizeNan => exact .normalizeNan
  case sci h1 h2 h3 h4 h5 h6 h7 h8 => exact .sci h1 h2 h3 h4 h5 h6 h7 h8
  case sciTiny h1 h2 => exact .sciTiny h1 h2
  case sciZero => exact .sciZero
  case sciNan => exact .sciNan
  case int h => exact .int h
  case intNan => exact .intNan
  case toF64 => exact .toF64
  case toF32 => exact .toF32
  case toFloatNan => exact .toFloatNan
  case bytes h1 h2 h3 => exact .bytes h1 h2 h3

theorem step_release {e : Bool} {act : Act} {l l' : List Slot} {a : Answer} (ha : a ≠ .assertion) (h : @Step ⟨true, e⟩ act l a l') :
    @Step ⟨false, e⟩ act l a l' := by
  let _ : Build := ⟨false, e⟩
  have hd : ∀ {p : Prop}, ¬ (Build.debug = true ∧ p) := fun h => absurd h.1 (by rintro ⟨⟩)
  induction h with
  | parse h => exact .parse h
  | parseEmpty h => exact .parseEmpty h
  | parseInvalid h => exact .parseInvalid h
  | parseOverflow h => exact .parseOverflow h
  | int => exact .int
  | factorial h => exact .factorial h
  | factorialNone h => exact .factorialNone h
  | op1 h1 h2 => exact .op1 h1 h2
  | op1Panic h1 h2 => exact .op1Panic h1 h2
  | checked h1 h2 h3 => exact .checked h1 h2 h3
  | checkedNone h1 h2 h3 => exact .checkedNone h1 h2 h3 hd
  | checkedAssert => exact absurd rfl ha
  | operator h1 h2 h3 => exact .operator h1 h2 h3
  | operatorPanic h1 h2 h3 => exact .operatorPanic h1 h2 h3 hd
  | operatorAssert => exact absurd rfl ha
  | zero => exact .zero
  | nan => exact .nan
  | bool => exact .bool
  | float h => exact .float h
  | floatNan => exact .floatNan
  | floatInf => exact .floatInf
  | operatorTake _ ih => exact .operatorTake (ih ha)
  | assign h1 h2 h3 => exact .assign h1 h2 h3
  | assignFail _ h2 ih => exact .assignFail (ih ha) h2
  | assignTake _ ih => exact .assignTake (ih ha)
  | reread h => exact .reread h
  | clone h => exact .clone h
  | mutate h1 h2 => exact .mutate h1 h2
  | mutateFail h1 h2 => exact .mutateFail h1 h2
  | mutateNan h1 h2 => exact .mutateNan h1 h2
  | drop => exact .drop
  | cmp h1 h2 => exact .cmp h1 h2
  | eq h1 h2 => exact .eq h1 h2
  | lt h1 h2 => exact .lt h1 h2
  | le h1 h2 => exact .le h1 h2
  | sameHash h1 h2 => exact .sameHash h1 h2
  | look h1 h2 h3 => exact .look h1 h2 (tells_release h3)

theorem play_release {e : Bool} {c : Client} {n : ℕ} : ∀ {l h l' h'}, @Play ⟨true, e⟩ c n (l, h) (l', h') → .assertion ∉ h' →
    @Play ⟨false, e⟩ c n (l, h) (l', h') ∧ ∃ t, h' = h ++ t := by
  let _ : Build := ⟨false, e⟩
  induction n with
  | zero => intro l h l' h' hp ha; cases hp; exact ⟨.zero, [], by simp⟩
  | succ n ih =>
    intro l h l' h' hp ha
    cases hp with
    | stop e => exact ⟨.stop e, [], by simp⟩
    | step e1 s p =>
      obtain ⟨p', t, rfl⟩ := ih p ha
      exact ⟨.step e1 (step_release (fun h => ha (by simp [h])) s) p', [_] ++ t, by simp only [List.append_assoc]; rfl⟩

/-- C61: a program that meets no failed assertion in a debug build sees the same answers in a release build. -/
theorem C61_build_independent {e : Bool} {lm : Libm} (hlm : LibmOK lm) {lay lay' : ℕ → Bin → Buf} (hg : @GoodLayout ⟨true, e⟩ lay)
    (hg' : @GoodLayout ⟨false, e⟩ lay') {c : Client} (hc : @Client.Legal ⟨true, e⟩ c [] []) (hc' : @Client.Legal ⟨false, e⟩ c [] []) {n : ℕ}
    {w : World} {h : List Answer} (hw : @playApi ⟨true, e⟩ lm lay c n (start, []) = .ok (w, h)) (hn : .assertion ∉ h) :
    ∃ w', @playApi ⟨false, e⟩ lm lay' c n (start, []) = .ok (w', h) := by
  obtain ⟨w1, l1, h1, e1, p1, -⟩ := @C61_client ⟨true, e⟩ _ hlm _ hg _ hc n
  rw [hw] at e1; cases e1
  obtain ⟨w2, l2, h2, e2, -, hu, -⟩ := @C61_client ⟨false, e⟩ _ hlm _ hg' _ hc' n
  obtain ⟨-, rfl⟩ := hu _ _ (play_release p1 hn).1
  exact ⟨w2, e2⟩

/-! ## Non-vacuity -/

/-- There is a layout: two unused cells, then the numeric. -/
theorem exists_layout [Build] : GoodLayout fun _ a =>
    ⟨[none, none] ++ (Data.wordCells a.vlLen ++ a.header.toInt :: a.rest.map BitVec.toInt).map some, 4⟩ := by
  intro n a ha
  refine ⟨⟨[none, none], [], by simp, rfl, ?_⟩, ?_⟩
  · simp only [Bin.headerSize]; split <;> omega
  · rcases ha with h | ⟨x, s, v, hv, rfl, -⟩
    · exact h.len
    · exact Bin.encode_len hv.storable

theorem legal_stop [Build] {c : Client} {l : List Slot} {h : List Answer} (e : c h = none) : c.Legal l h := by
  intro n l' h' act hp ha
  cases hp with
  | zero => rw [e] at ha; cases ha
  | stop => rw [e] at ha; cases ha
  | step e' => rw [e] at e'; cases e'

theorem legal_step [Build] {c : Client} {l l1 : List Slot} {h : List Answer} {act : Act} {ans : Answer} (e : c h = some act) (hl : act.Legal l)
    (hs : Step act l ans l1) (hr : c.Legal l1 (h ++ [ans])) : c.Legal l h := by
  intro n l' h' act' hp ha
  cases hp with
  | zero => rw [e] at ha; cases ha; exact hl
  | stop e' => rw [e] at e'; cases e'
  | step e' hs' hp =>
    rw [e] at e'; cases e'
    obtain ⟨rfl, rfl⟩ := step_det hl hs hs'
    exact hr _ _ _ _ hp ha

/-- A program that creates 7 and 0, asks whether 0 < 7 and, if so, divides 7 by 0; when that panics it adds 7 to itself, and looks at the sum. -/
def demo : Client
  | [] => some (.int .i32 7)
  | [_] => some (.int .i32 0)
  | [_, _] => some (.lt 1 0)
  | [_, _, .flag true] => some (.operator .div 0 1)
  | [_, _, _, .panic "attempt to divide by zero"] => some (.checked .add 0 0)
  | [_, _, _, _, .number] => some (.text 2)
  | _ => none

example [Build] : demo.Legal [] [] ∧ ∃ l, Play demo 10 ([], [])
    (l, [.number, .number, .flag true, .panic "attempt to divide by zero", .number, .text [49, 52]]) := by
  have e1 : demo [] = some (.int .i32 7) := rfl
  have e2 : demo [.number] = some (.int .i32 0) := rfl
  have e3 : demo [.number, .number] = some (.lt 1 0) := rfl
  have e4 : demo [.number, .number, .flag true] = some (.operator .div 0 1) := rfl
  have e5 : demo [.number, .number, .flag true, .panic "attempt to divide by zero"] = some (.checked .add 0 0) := rfl
  have e6 : demo [.number, .number, .flag true, .panic "attempt to divide by zero", .number] = some (.text 2) := rfl
  have e7 : demo [.number, .number, .flag true, .panic "attempt to divide by zero", .number, .text [49, 52]] = none := rfl
  have s1 : Step (.int .i32 7) [] .number [.val (.num 7 0)] := by simpa using Step.int (ty := .i32) (n := 7) (l := [])
  have s2 : Step (.int .i32 0) [.val (.num 7 0)] .number [.val (.num 7 0), .val (.num 0 0)] := by
    simpa using Step.int (ty := .i32) (n := 0) (l := [.val (.num 7 0)])
  have s3 : Step (.lt 1 0) [.val (.num 7 0), .val (.num 0 0)] (.flag true) [.val (.num 7 0), .val (.num 0 0)] := by
    have := Step.lt (i := 1) (j := 0) (l := [.val (.num 7 0), .val (.num 0 0)]) rfl rfl
    rwa [decide_eq_true] at this
    exact WithTop.coe_lt_coe.2 (by norm_num)
  have s4 : Step (.operator .div 0 1) [.val (.num 7 0), .val (.num 0 0)] (.panic "attempt to divide by zero") [.val (.num 7 0), .val (.num 0 0)] := by
    have := Step.operatorPanic (op := .div) (i := 0) (j := 1) (l := [.val (.num 7 0), .val (.num 0 0)]) rfl rfl (by
      rintro r ⟨p, h, -⟩
      simp [Op2.raw] at h) (fun h => h.2)
    simpa [Op2.message] using this
  have s5 : Step (.checked .add 0 0) [.val (.num 7 0), .val (.num 0 0)] .number [.val (.num 7 0), .val (.num 0 0), .val (.num 14 0)] := by
    refine Step.checked (op := .add) (i := 0) (j := 0) (r := .num 14 0) (l := [.val (.num 7 0), .val (.num 0 0)]) rfl rfl
      ⟨(14, 0), ?_, ⟨?_, by norm_num⟩, rfl⟩
    · simp only [Op2.raw]; norm_num
    · exact lt_limit (x := 14) (by norm_num)
  have s6 : Step (.text 2) [.val (.num 7 0), .val (.num 0 0), .val (.num 14 0)] (.text [49, 52])
      [.val (.num 7 0), .val (.num 0 0), .val (.num 14 0)] := by
    refine Step.look rfl rfl ?_
    have := Tells.text (i := 2) (x := 14) (s := 0) (N := 14) (by norm_num)
    rwa [show decimalText (decide ((14:ℚ) < 0)) 14 0 = [49, 52] by rw [decide_eq_false (by norm_num)]; rfl] at this
  refine ⟨?_, _, .step e1 s1 (.step e2 s2 (.step e3 s3 (.step e4 s4 (.step e5 s5 (.step e6 s6 (.stop e7))))))⟩
  refine legal_step e1 ⟨by simp [Convert.types], by decide, by decide⟩ s1 ?_
  refine legal_step e2 ⟨by simp [Convert.types], by decide, by decide⟩ s2 ?_
  refine legal_step e3 ⟨⟨_, rfl⟩, ⟨_, rfl⟩⟩ s3 ?_
  refine legal_step e4 ⟨by rintro ⟨⟩, ⟨_, rfl⟩, ⟨_, rfl⟩⟩ s4 ?_
  refine legal_step e5 ⟨⟨_, rfl⟩, ⟨_, rfl⟩⟩ s5 ?_
  exact legal_step e6 ⟨_, rfl⟩ s6 (legal_stop e7)

/-- A program that creates 7 and 2, adds 2 to the first, then multiplies the two by value, and looks at the product. -/
def demoTake : Client
  | [] => some (.int .i32 7)
  | [_] => some (.int .i32 2)
  | [_, _] => some (.assign .add 0 1)
  | [_, _, .unit] => some (.operatorTake .mul true true 0 1)
  | [_, _, _, .number] => some (.text 2)
  | _ => none

example [Build] : demoTake.Legal [] [] ∧ Play demoTake 10 ([], [])
    ([.gone, .gone, .val (.num 18 0)], [.number, .number, .unit, .number, .text [49, 56]]) := by
  have e1 : demoTake [] = some (.int .i32 7) := rfl
  have e2 : demoTake [.number] = some (.int .i32 2) := rfl
  have e3 : demoTake [.number, .number] = some (.assign .add 0 1) := rfl
  have e4 : demoTake [.number, .number, .unit] = some (.operatorTake .mul true true 0 1) := rfl
  have e5 : demoTake [.number, .number, .unit, .number] = some (.text 2) := rfl
  have e6 : demoTake [.number, .number, .unit, .number, .text [49, 56]] = none := rfl
  have s1 : Step (.int .i32 7) [] .number [.val (.num 7 0)] := by simpa using Step.int (ty := .i32) (n := 7) (l := [])
  have s2 : Step (.int .i32 2) [.val (.num 7 0)] .number [.val (.num 7 0), .val (.num 2 0)] := by
    simpa using Step.int (ty := .i32) (n := 2) (l := [.val (.num 7 0)])
  have s3 : Step (.assign .add 0 1) [.val (.num 7 0), .val (.num 2 0)] .unit [.val (.num 9 0), .val (.num 2 0)] := by
    refine Step.assign (op := .add) (i := 0) (j := 1) (r := .num 9 0) (l := [.val (.num 7 0), .val (.num 2 0)]) rfl rfl
      ⟨(9, 0), ?_, ⟨lt_limit (x := 9) (by norm_num), by norm_num⟩, rfl⟩
    simp only [Op2.raw]; norm_num
  have s4 : Step (.operatorTake .mul true true 0 1) [.val (.num 9 0), .val (.num 2 0)] .number [.gone, .gone, .val (.num 18 0)] := by
    refine Step.operatorTake (l' := [.val (.num 9 0), .val (.num 2 0), .val (.num 18 0)])
      (Step.operator (l := [.val (.num 9 0), .val (.num 2 0)]) (r := .num 18 0) rfl rfl ?_)
    refine ⟨(18, 0), ?_, ⟨lt_limit (x := 18) (by norm_num), by norm_num⟩, rfl⟩
    simp only [Op2.raw]; norm_num
  have s5 : Step (.text 2) [.gone, .gone, .val (.num 18 0)] (.text [49, 56]) [.gone, .gone, .val (.num 18 0)] := by
    refine Step.look rfl rfl ?_
    have := Tells.text (i := 2) (x := 18) (s := 0) (N := 18) (by norm_num)
    rwa [show decimalText (decide ((18:ℚ) < 0)) 18 0 = [49, 56] by rw [decide_eq_false (by norm_num)]; rfl] at this
  refine ⟨?_, .step e1 s1 (.step e2 s2 (.step e3 s3 (.step e4 s4 (.step e5 s5 (.stop e6)))))⟩
  refine legal_step e1 ⟨by simp [Convert.types], by decide, by decide⟩ s1 ?_
  refine legal_step e2 ⟨by simp [Convert.types], by decide, by decide⟩ s2 ?_
  refine legal_step e3 ⟨by rintro ⟨⟩, ⟨_, rfl⟩, ⟨_, rfl⟩, by norm_num⟩ s3 ?_
  refine legal_step e4 ⟨by rintro ⟨⟩, ⟨_, rfl⟩, ⟨_, rfl⟩, fun _ => by norm_num⟩ s4 ?_
  exact legal_step e5 ⟨_, rfl⟩ s5 (legal_stop e6)

end PgNumeric.Props
