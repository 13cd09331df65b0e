import Verif.Tool.MigrateProps

/-!
# Configuration migration: what each version change does

Round trips over one version, in exact arithmetic and in doubles, and
witnesses for the settings that do not survive (C27).
-/

namespace Verif.Tool

open Verif.Float

/-! ## Single version changes -/

section Steps
variable (A : Arith) (family : Int) (d : Items)

theorem migrate_up010a : migrate A 0x0109 0x010a family d = up010a A family d := by
  simp [migrate, onlyIf]
theorem migrate_down010a : migrate A 0x010a 0x0109 family d = down010a A family d := by
  simp [migrate, onlyIf]
theorem migrate_up0109 :
    migrate A 0x0108 0x0109 family d = (do let d ← up0109a A d; up0109b A d) := by
  simp [migrate, onlyIf]
theorem migrate_down0109 : migrate A 0x0109 0x0108 family d = down0109 A d := by
  simp [migrate, onlyIf]
theorem migrate_up0108 : migrate A 0x0107 0x0108 family d = up0108 A d := by
  simp [migrate, onlyIf]
theorem migrate_down0108 : migrate A 0x0108 0x0107 family d = down0108 A d := by
  simp [migrate, onlyIf]
theorem migrate_up0107 : migrate A 0x0106 0x0107 family d = up0107 d := by
  simp [migrate, onlyIf]
theorem migrate_down0107 : migrate A 0x0107 0x0106 family d = down0107 d := by
  simp [migrate, onlyIf]
theorem migrate_up0106 : migrate A 0x0105 0x0106 family d = up0106 d := by
  simp [migrate, onlyIf]
theorem migrate_down0106 : migrate A 0x0106 0x0105 family d = down0106 d := by
  simp [migrate, onlyIf]
theorem migrate_up0105 : migrate A 0x0104 0x0105 family d = up0105 A d := by
  simp [migrate, onlyIf]
theorem migrate_down0105 : migrate A 0x0105 0x0104 family d = down0105 A d := by
  simp [migrate, onlyIf]
theorem migrate_up0104 : migrate A 0x0103 0x0104 family d = up0104 A d := by
  simp [migrate, onlyIf]
theorem migrate_down0104 : migrate A 0x0104 0x0103 family d = down0104 A d := by
  simp [migrate, onlyIf]
theorem migrate_up0103 : migrate A 0x0102 0x0103 family d = up0103 A d := by
  simp [migrate, onlyIf]
theorem migrate_down0103 : migrate A 0x0103 0x0102 family d = down0103 A d := by
  simp [migrate, onlyIf]
theorem migrate_up0101 : migrate A 0x0100 0x0101 family d = up0101 A d := by
  simp [migrate, onlyIf]
theorem migrate_down0101 : migrate A 0x0101 0x0100 family d = down0101 A d := by
  simp [migrate, onlyIf]

end Steps

/-- Python doubles. -/
def doubles : Arith := ⟨b64.round, some⟩

/-- The number a setting holds: absent, unreadable, or a float. -/
def number (A : Arith) (d : Items) (k : Key) : Option (M Fl) := (get d k).map (toFloat A)

/-- The setting holds the number `x`. -/
def Holds (A : Arith) (d : Items) (k : Key) (x : Fl) : Prop :=
  ∃ v, get d k = some v ∧ toFloat A v = .ok x

theorem Holds.number {A : Arith} {d : Items} {k : Key} {x : Fl} (h : Holds A d k x) :
    number A d k = some (.ok x) := by
  obtain ⟨v, h1, h2⟩ := h
  simp [Tool.number, h1, h2]

theorem Holds.congr {A : Arith} {d e : Items} {k : Key} {x : Fl} (h : Holds A d k x)
    (he : get e k = get d k) : Holds A e k x := by
  obtain ⟨v, h1, h2⟩ := h
  exact ⟨v, by rw [he, h1], h2⟩

theorem holds_set {A : Arith} {d : Items} {k : Key} {x : Fl} : Holds A (set d k (.flt x)) k x :=
  ⟨.flt x, by rw [get_set, if_pos rfl], rfl⟩

theorem Holds.get {A : Arith} {d : Items} {k : Key} {x : Fl} (h : Holds A d k x) :
    floatGet A d k = .ok x := by
  obtain ⟨v, h1, h2⟩ := h
  unfold floatGet; rw [h1]; exact h2

theorem Holds.or {A : Arith} {d : Items} {k : Key} {x y : Fl} (h : Holds A d k x) :
    floatOr A d k y = .ok x := by
  obtain ⟨v, h1, h2⟩ := h
  unfold floatOr; rw [h1]; exact h2

theorem Holds.has {A : Arith} {d : Items} {k : Key} {x : Fl} (h : Holds A d k x) :
    has d k = true := by
  obtain ⟨v, h1, h2⟩ := h
  unfold Tool.has; rw [h1]; rfl

theorem ok_bind {α β : Type} (a : α) (f : α → M β) : (Except.ok a >>= f) = f a := rfl
theorem error_bind {α β : Type} (e : MErr) (f : α → M β) :
    ((Except.error e : M α) >>= f) = .error e := rfl

theorem fdiv_fin (A : Arith) (a b : ℚ) (h : b ≠ 0) : fdiv A (.fin a) (.fin b) = .ok (A.rnd (a / b)) := by
  unfold fdiv
  split
  · next he => cases he; exact absurd rfl h
  · next h1 h2 => cases h1; cases h2; rfl
  all_goals simp_all

theorem feq_fin (a b : ℚ) : feq (.fin a) (.fin b) = decide (a = b) := rfl

/-! ## Version 0x010a: Kv and maximum power -/

/-- The value that a conversion between Kv and volts per Hz writes. -/
def invert (A : Arith) (x : ℚ) : Val :=
  if x = 0 then .int 0 else .flt (A.rnd ((match fudge A with | .fin f => f | _ => 0) / x))

theorem fudge_exact : fudge exact = .fin (327 / 10) := by
  simp [fudge, fmul, exact]; norm_num

/-- 1.09 * 0.5 * 60 in doubles -/
theorem fudge_doubles : ∃ f : ℚ, fudge doubles = .fin f ∧ 32 ≤ f ∧ f ≤ 33 := by
  refine ⟨2301057934609613 / 70368744177664, by decide +kernel, by norm_num, by norm_num⟩

theorem up010a_eq (A : Arith) (family : Int) (d : Items) (x f : ℚ) (hf : fudge A = .fin f)
    (h : Holds A d kVPerHz (.fin x)) :
    up010a A family d =
      (let d := set (drop d kVPerHz) kKv (invert A x)
       if has d kMaxPower then do
        let b ← boardDefault family
        let p ← floatGet A d kMaxPower
        if feq p (.fin b) then pure (set d kMaxPower (.flt .nan))
        else do
          let pwm ← floatOr A d kPwmRate (.fin 40000)
          let r ← fdiv A pwm (.fin 40000)
          pure (set d kMaxPower (.flt (fmul A p r)))
       else pure d) := by
  obtain ⟨v, h1, h2⟩ := h
  unfold up010a pop need
  rw [h1]
  simp only [ok_bind, pure_bind, h2, feq_fin, invert, hf]
  by_cases hx : x = 0
  · simp only [hx, decide_true, if_true, pure_bind]
  · simp only [hx, decide_false, Bool.false_eq_true, if_false, fdiv_fin _ _ _ hx]
    rfl

theorem down010a_eq (A : Arith) (family : Int) (d : Items) (x f : ℚ) (hf : fudge A = .fin f)
    (h : Holds A d kKv (.fin x)) :
    down010a A family d =
      (let d := set (drop d kKv) kVPerHz (invert A x)
       if has d kMaxPower then do
        let p ← floatGet A d kMaxPower
        if !isFinite p then do
          let b ← boardDefault family
          pure (set d kMaxPower (.flt (.fin b)))
        else do
          let pwm ← floatGet A d kPwmRate
          let r ← fdiv A (.fin 40000) pwm
          pure (set d kMaxPower (.flt (fmul A p r)))
       else pure d) := by
  obtain ⟨v, h1, h2⟩ := h
  unfold down010a pop need
  rw [h1]
  simp only [ok_bind, pure_bind, h2, feq_fin, invert, hf]
  by_cases hx : x = 0
  · simp only [hx, decide_true, if_true, pure_bind]
  · simp only [hx, decide_false, Bool.false_eq_true, if_false, fdiv_fin _ _ _ hx]
    rfl

/-- A configuration of version 0x0109: volts per Hz is `x`; if there is a power
limit, it is the finite number `y` and the PWM rate is the non-zero number `r`. -/
structure Settings0109 (A : Arith) (d : Items) (x y r : ℚ) : Prop where
  volts : Holds A d kVPerHz (.fin x)
  power : get d kMaxPower = none ∨
    (Holds A d kMaxPower (.fin y) ∧ Holds A d kPwmRate (.fin r) ∧ r ≠ 0)

theorem boardDefault_ok (family : Int) (h : family = 0 ∨ family = 1 ∨ family = 2) :
    ∃ b, boardDefault family = .ok b := by
  rcases h with rfl | rfl | rfl
  · exact ⟨450, rfl⟩
  · exact ⟨450, rfl⟩
  · exact ⟨100, rfl⟩

theorem holds_invert (A : Arith) (h0 : A.rnd 0 = .fin 0) (d : Items) (k : Key) (x f : ℚ)
    (hf : fudge A = .fin f) :
    Holds A (set d k (invert A x)) k (if x = 0 then .fin 0 else A.rnd (f / x)) := by
  refine ⟨_, by rw [get_set, if_pos rfl], ?_⟩
  unfold invert
  rw [hf]
  by_cases hx : x = 0
  · simp only [hx, if_true, toFloat]; rw [Int.cast_zero, h0]
  · simp only [hx, if_false, toFloat]

/-- The effect of an upgrade to 0x010a. -/
theorem up010a_spec (A : Arith) (h0 : A.rnd 0 = .fin 0) (family : Int) (d : Items)
    (x y r f : ℚ) (hf : fudge A = .fin f) (hfam : family = 0 ∨ family = 1 ∨ family = 2)
    (h : Settings0109 A d x y r) :
    ∃ d1 b, up010a A family d = .ok d1 ∧ boardDefault family = .ok b ∧
      Holds A d1 kKv (if x = 0 then .fin 0 else A.rnd (f / x)) ∧
      get d1 kVPerHz = none ∧ get d1 kPwmRate = get d kPwmRate ∧
      ((get d kMaxPower = none ∧ get d1 kMaxPower = none) ∨
        (Holds A d1 kMaxPower (if y = b then .nan else fmul A (.fin y) (A.rnd (r / 40000))) ∧
          Holds A d kMaxPower (.fin y) ∧ Holds A d kPwmRate (.fin r) ∧ r ≠ 0)) := by
  obtain ⟨b, hb⟩ := boardDefault_ok family hfam
  obtain ⟨hv, hp⟩ := h
  rw [up010a_eq A family d x f hf hv]
  set e := Tool.set (drop d kVPerHz) kKv (invert A x) with he
  have ek : Holds A e kKv (if x = 0 then .fin 0 else A.rnd (f / x)) := holds_invert A h0 _ _ _ _ hf
  have ge (k : Key) (h1 : k ≠ kKv) (h2 : k ≠ kVPerHz) : get e k = get d k := by
    rw [he, get_set, if_neg h1, get_drop, if_neg h2]
  have gv : get e kVPerHz = none := by
    rw [he, get_set, if_neg (by decide), get_drop, if_pos rfl]
  rcases hp with hp | ⟨hp, hr, hr0⟩
  · have : has e kMaxPower = false := by
      unfold has; rw [ge _ (by decide) (by decide), hp]; rfl
    refine ⟨e, b, ?_, hb, ek, gv, ge _ (by decide) (by decide), Or.inl ⟨hp, ?_⟩⟩
    · simp only [this, Bool.false_eq_true, if_false]; rfl
    · rw [ge _ (by decide) (by decide), hp]
  · have hp' := hp.congr (ge _ (by decide) (by decide))
    have hr' := hr.congr (ge _ (by decide) (by decide))
    refine ⟨Tool.set e kMaxPower (.flt (if y = b then .nan else fmul A (.fin y) (A.rnd (r / 40000)))), b,
      ?_, hb, ?_, ?_, ?_, Or.inr ⟨holds_set, hp, hr, hr0⟩⟩
    · simp only [hp'.has, if_true, hb, ok_bind, hp'.get, feq_fin, hr'.or,
        fdiv_fin A r 40000 (by norm_num)]
      by_cases hy : y = b
      · simp only [hy, decide_true, if_true]; rfl
      · simp only [hy, decide_false, Bool.false_eq_true, if_false]; rfl
    · exact ek.congr (by rw [get_set, if_neg (by decide)])
    · rw [get_set, if_neg (by decide), gv]
    · rw [get_set, if_neg (by decide), ge _ (by decide) (by decide)]

/-- The effect of a downgrade to 0x0109. -/
theorem down010a_spec (A : Arith) (h0 : A.rnd 0 = .fin 0) (family : Int) (d : Items)
    (x f r : ℚ) (p : Fl) (hf : fudge A = .fin f) (hfam : family = 0 ∨ family = 1 ∨ family = 2)
    (hx : Holds A d kKv (.fin x))
    (hp : get d kMaxPower = none ∨
      (Holds A d kMaxPower p ∧ Holds A d kPwmRate (.fin r) ∧ r ≠ 0)) :
    ∃ d1 b, down010a A family d = .ok d1 ∧ boardDefault family = .ok b ∧
      Holds A d1 kVPerHz (if x = 0 then .fin 0 else A.rnd (f / x)) ∧ get d1 kKv = none ∧
      get d1 kPwmRate = get d kPwmRate ∧
      ((get d kMaxPower = none ∧ get d1 kMaxPower = none) ∨
        Holds A d1 kMaxPower (if isFinite p then fmul A p (A.rnd (40000 / r)) else .fin b)) := by
  obtain ⟨b, hb⟩ := boardDefault_ok family hfam
  rw [down010a_eq A family d x f hf hx]
  set e := Tool.set (drop d kKv) kVPerHz (invert A x) with he
  have ek : Holds A e kVPerHz (if x = 0 then .fin 0 else A.rnd (f / x)) :=
    holds_invert A h0 _ _ _ _ hf
  have ge (k : Key) (h1 : k ≠ kKv) (h2 : k ≠ kVPerHz) : get e k = get d k := by
    rw [he, get_set, if_neg h2, get_drop, if_neg h1]
  have gv : get e kKv = none := by
    rw [he, get_set, if_neg (by decide), get_drop, if_pos rfl]
  rcases hp with hp | ⟨hp, hr, hr0⟩
  · have : has e kMaxPower = false := by
      unfold has; rw [ge _ (by decide) (by decide), hp]; rfl
    refine ⟨e, b, ?_, hb, ek, gv, ge _ (by decide) (by decide), Or.inl ⟨hp, ?_⟩⟩
    · simp only [this, Bool.false_eq_true, if_false]; rfl
    · rw [ge _ (by decide) (by decide), hp]
  · have hp' := hp.congr (ge _ (by decide) (by decide))
    have hr' := hr.congr (ge _ (by decide) (by decide))
    refine ⟨Tool.set e kMaxPower (.flt (if isFinite p then fmul A p (A.rnd (40000 / r)) else .fin b)), b,
      ?_, hb, ?_, ?_, ?_, Or.inr holds_set⟩
    · simp only [hp'.has, if_true, hb, ok_bind, hp'.get, hr'.get, fdiv_fin A 40000 r hr0]
      cases isFinite p <;> rfl
    · exact ek.congr (by rw [get_set, if_neg (by decide)])
    · rw [get_set, if_neg (by decide), gv]
    · rw [get_set, if_neg (by decide), ge _ (by decide) (by decide)]

/-- C27, exact arithmetic: upgrading from 0x0109 to 0x010a and back restores
every setting. -/
theorem C27_round_trip_010a (family : Int) (d : Items) (x y r : ℚ)
    (hfam : family = 0 ∨ family = 1 ∨ family = 2) (h : Settings0109 exact d x y r) :
    ∃ d1 d2, migrate exact 0x0109 0x010a family d = .ok d1 ∧
      migrate exact 0x010a 0x0109 family d1 = .ok d2 ∧
      ∀ k, k ≠ [.n "motor", .n "Kv"] → number exact d2 k = number exact d k := by
  obtain ⟨d1, b, e1, hb, hk, hn, hr, hp⟩ :=
    up010a_spec exact rfl family d x y r _ fudge_exact hfam h
  have hk' : Holds exact d1 kKv (.fin (if x = 0 then 0 else 327 / 10 / x)) := by
    have : (if x = 0 then Fl.fin 0 else exact.rnd (327 / 10 / x)) =
        .fin (if x = 0 then 0 else 327 / 10 / x) := by split <;> rfl
    rwa [this] at hk
  have hp2 : get d1 kMaxPower = none ∨
      (Holds exact d1 kMaxPower (if y = b then .nan else fmul exact (.fin y) (exact.rnd (r / 40000))) ∧
        Holds exact d1 kPwmRate (.fin r) ∧ r ≠ 0) := by
    rcases hp with hp | ⟨a, _, c, c0⟩
    · exact Or.inl hp.2
    · exact Or.inr ⟨a, c.congr hr, c0⟩
  obtain ⟨d2, b', e2, hb', hv2, _, _, hp3⟩ :=
    down010a_spec exact rfl family d1 _ _ r _ fudge_exact hfam hk' hp2
  have hbb : b' = b := by rw [hb] at hb'; injection hb' with h; exact h.symm
  refine ⟨d1, d2, by rw [migrate_up010a, e1], by rw [migrate_down010a, e2], fun k hkk => ?_⟩
  by_cases h1 : k = kVPerHz
  · rw [h1, hv2.number, h.volts.number]
    by_cases hx : x = 0
    · simp [hx]
    · have : (327 / 10 / x : ℚ) ≠ 0 := by positivity
      simp only [hx, if_false, this, exact]
      congr 3
      field_simp
  by_cases h2 : k = kMaxPower
  · rw [h2]
    rcases hp with ⟨hp, hq⟩ | ⟨a, a', c, c0⟩
    · rcases hp3 with hp3 | hp3
      · unfold number; rw [hp, hp3.2]
      · exfalso
        rcases hp2 with hp2 | ⟨⟨v, hv, _⟩, _⟩
        · -- the downgrade of a configuration without limit
          have := C27_untouched exact family 0x010a 0x0109 d1 d2
          clear this
          have hd := e2
          rw [down010a_eq exact family d1 _ _ fudge_exact hk'] at hd
          have hh : has (Tool.set (drop d1 kKv) kVPerHz
              (invert exact (if x = 0 then 0 else 327 / 10 / x))) kMaxPower = false := by
            unfold has
            rw [get_set, if_neg (by decide), get_drop, if_neg (by decide), hp2]; rfl
          simp only [hh, Bool.false_eq_true, if_false] at hd
          cases hd
          obtain ⟨v, hv, _⟩ := hp3
          rw [get_set, if_neg (by decide), get_drop, if_neg (by decide), hp2] at hv
          cases hv
        · rw [hq] at hv; cases hv
    · rcases hp3 with hp3 | hp3
      · obtain ⟨v, hv, _⟩ := a
        rw [hp3.1] at hv; cases hv
      · rw [hp3.number, a'.number]
        by_cases hy : y = b
        · simp [hy, isFinite, hbb]
        · simp only [hy, if_false, fmul, exact, isFinite, if_true]
          congr 3
          field_simp
  · unfold number
    have f1 := C27_untouched exact family 0x0109 0x010a d d1 k (by rw [migrate_up010a, e1])
      (fun b hb => by
        have : b = 0x010a := by unfold Crossed at hb; omega
        subst this
        simp only [related, decide_eq_false_iff_not, List.mem_cons, List.not_mem_nil, or_false]
        rintro (h | h | h)
        · exact hkk h
        · exact h1 h
        · exact h2 h)
    have f2 := C27_untouched exact family 0x010a 0x0109 d1 d2 k (by rw [migrate_down010a, e2])
      (fun b hb => by
        have : b = 0x010a := by unfold Crossed at hb; omega
        subst this
        simp only [related, decide_eq_false_iff_not, List.mem_cons, List.not_mem_nil, or_false]
        rintro (h | h | h)
        · exact hkk h
        · exact h1 h
        · exact h2 h)
    rw [f2, f1]

/-- The hypotheses hold for a configuration with all three settings. -/
example : Settings0109 exact
    [(kVPerHz, .flt (.fin (1 / 4))), (kMaxPower, .flt (.fin 200)), (kPwmRate, .int 30000)]
    (1 / 4) 200 30000 where
  volts := ⟨_, rfl, rfl⟩
  power := Or.inr ⟨⟨_, rfl, rfl⟩, ⟨_, rfl, rfl⟩, by norm_num⟩

theorem round_near {q : ℚ} (h1 : 1 / 2 ^ 200 ≤ |q|) (h2 : |q| ≤ 2 ^ 200) :
    ∃ δ : ℚ, |δ| ≤ 1 / 2 ^ 53 ∧ b64.round q = .fin (q * (1 + δ)) := by
  have tiny : pow2 (-1022) ≤ 1 / 2 ^ 200 :=
    (pow2_le (by norm_num : (-1022 : ℤ) ≤ -200)).trans (by rw [pow2_eq]; norm_num)
  have hr := roundQ_rel_err (f := b64) (x := q) (by
    rw [show b64.emin + (b64.prec : ℤ) - 1 = -1022 by decide]; exact tiny.trans h1)
  have hq : 0 < |q| := lt_of_lt_of_le (by positivity) h1
  have hq0 : q ≠ 0 := abs_pos.1 hq
  have hbig : |b64.roundQ q| < pow2 b64.emax := by
    have fixed : b64.roundQ ((2 : ℚ) ^ 200) = (2 : ℚ) ^ 200 := by decide +kernel
    have a := abs_le.1 h2
    have u := roundQ_le_of_le (f := b64) (by decide) fixed a.2
    have l := le_roundQ_of_le (f := b64) (by decide) (y := -(2 : ℚ) ^ 200)
      (by rw [roundQ_neg, fixed]) a.1
    have : |b64.roundQ q| ≤ 2 ^ 200 := abs_le.2 ⟨l, u⟩
    refine lt_of_le_of_lt this (lt_of_lt_of_le ?_ (pow2_le (by decide : (201 : ℤ) ≤ b64.emax)))
    rw [pow2_eq]; norm_num
  refine ⟨(b64.roundQ q - q) / q, ?_, ?_⟩
  · rw [abs_div, div_le_iff₀ hq]
    have e : |q| * pow2 (-(b64.prec : ℤ)) = 1 / 2 ^ 53 * |q| := by
      rw [show (b64.prec : ℤ) = 53 from rfl, pow2_eq]; norm_num; ring
    linarith
  · unfold Fmt.round
    rw [if_pos hbig]
    congr 1
    field_simp
    ring

/-- C27, doubles: volts per Hz survives an upgrade from 0x0109 to 0x010a and
back up to a relative error of 2^-51. -/
theorem C27_volts_double (family : Int) (d : Items) (x y r : ℚ)
    (hfam : family = 0 ∨ family = 1 ∨ family = 2) (h : Settings0109 doubles d x y r)
    (hx : x = 0 ∨ (1 / 2 ^ 100 ≤ |x| ∧ |x| ≤ 2 ^ 100))
    (hnp : get d kMaxPower = none) :
    ∃ d1 d2 x', migrate doubles 0x0109 0x010a family d = .ok d1 ∧
      migrate doubles 0x010a 0x0109 family d1 = .ok d2 ∧
      Holds doubles d2 kVPerHz (.fin x') ∧ |x' - x| ≤ |x| / 2 ^ 51 := by
  obtain ⟨f, hf, f1, f2⟩ := fudge_doubles
  have r0 : doubles.rnd 0 = .fin 0 := by decide +kernel
  obtain ⟨d1, b, e1, hb, hk, hn, hr, hp⟩ := up010a_spec doubles r0 family d x y r f hf hfam h
  have hp1 : get d1 kMaxPower = none := by
    rcases hp with hp | ⟨_, ⟨v, hv, _⟩, _⟩
    · exact hp.2
    · rw [hnp] at hv; cases hv
  rcases hx with rfl | ⟨hx1, hx2⟩
  · simp only [if_true] at hk
    obtain ⟨d2, b', e2, _, hv2, _⟩ :=
      down010a_spec doubles r0 family d1 0 f r .nan hf hfam hk (Or.inl hp1)
    simp only [if_true] at hv2
    exact ⟨d1, d2, 0, by rw [migrate_up010a, e1], by rw [migrate_down010a, e2], hv2, by simp⟩
  · have hxp : 0 < |x| := lt_of_lt_of_le (by positivity) hx1
    have hx0 : x ≠ 0 := abs_pos.1 hxp
    have c1 : |f / x| = f / |x| := by rw [abs_div, abs_of_pos (by linarith)]
    norm_num at hx1 hx2
    have lo1 : 1 / 2 ^ 200 ≤ f / |x| := by
      rw [div_le_div_iff₀ (by norm_num) hxp]; norm_num; linarith
    have hi1 : f / |x| ≤ 2 ^ 200 := by
      rw [div_le_iff₀ hxp]; norm_num; linarith
    obtain ⟨δ, hδ, hround⟩ := round_near (q := f / x) (by rw [c1]; exact lo1) (by rw [c1]; exact hi1)
    have hδ' := abs_le.1 hδ
    have h53 : (1 : ℚ) / 2 ^ 53 < 1 / 2 ^ 52 := by norm_num
    have h1δ : 0 < 1 + δ := by
      have : (1 : ℚ) / 2 ^ 53 < 1 := by norm_num
      linarith [hδ'.1]
    simp only [hx0, if_false] at hk
    rw [show doubles.rnd = b64.round from rfl, hround] at hk
    have hkv0 : f / x * (1 + δ) ≠ 0 := by
      refine mul_ne_zero (div_ne_zero (by linarith) hx0) h1δ.ne'
    obtain ⟨d2, b', e2, _, hv2, _⟩ :=
      down010a_spec doubles r0 family d1 _ f r .nan hf hfam hk (Or.inl hp1)
    simp only [hkv0, if_false] at hv2
    have e3 : f / (f / x * (1 + δ)) = x / (1 + δ) := by
      have : f ≠ 0 := by linarith
      field_simp
    rw [e3] at hv2
    have c2 : |x / (1 + δ)| = |x| / (1 + δ) := by rw [abs_div, abs_of_pos h1δ]
    have up1 : 1 + δ ≤ 2 := by
      have : (1 : ℚ) / 2 ^ 53 < 1 := by norm_num
      linarith [hδ'.2]
    have lo2 : 1 / 2 ≤ 1 + δ := by
      have : (1 : ℚ) / 2 ^ 53 < 1 / 2 := by norm_num
      linarith [hδ'.1]
    obtain ⟨ε, hε, hround2⟩ := round_near (q := x / (1 + δ)) (by
        rw [c2, le_div_iff₀ h1δ]; norm_num; linarith) (by
        rw [c2, div_le_iff₀ h1δ]; norm_num; linarith)
    rw [show doubles.rnd = b64.round from rfl, hround2] at hv2
    refine ⟨d1, d2, _, by rw [migrate_up010a, e1], by rw [migrate_down010a, e2], hv2, ?_⟩
    have hε' := abs_le.1 hε
    have e4 : x / (1 + δ) * (1 + ε) - x = x * ((ε - δ) / (1 + δ)) := by
      field_simp; ring
    rw [e4, abs_mul, div_eq_mul_inv |x|]
    refine mul_le_mul_of_nonneg_left ?_ (abs_nonneg x)
    rw [abs_div, abs_of_pos h1δ, div_le_iff₀ h1δ]
    have b1 : |ε - δ| ≤ 1 / 2 ^ 52 := by
      rw [abs_le]; constructor <;> norm_num at hε' hδ' ⊢ <;> linarith
    have b2 : (1 : ℚ) / 2 ^ 52 ≤ (2 ^ 51)⁻¹ * (1 + δ) := by
      have : (2 ^ 51 : ℚ)⁻¹ * (1 / 2) ≤ (2 ^ 51)⁻¹ * (1 + δ) :=
        mul_le_mul_of_nonneg_left lo2 (by positivity)
      norm_num at this ⊢; linarith
    linarith

/-- C27 does not hold the other way: a power limit of 450 W at 40 kHz is taken
for the board default and replaced by NaN. -/
theorem C27_power_refuted :
    ∃ (d d1 d2 : Items), migrate doubles 0x010a 0x0109 0 d = .ok d1 ∧
      migrate doubles 0x0109 0x010a 0 d1 = .ok d2 ∧
      number doubles d kMaxPower = some (.ok (.fin 450)) ∧
      number doubles d2 kMaxPower = some (.ok .nan) := by
  refine ⟨[(kKv, .int 0), (kMaxPower, .flt (.fin 450)), (kPwmRate, .int 40000)],
    [(kMaxPower, .flt (.fin 450)), (kPwmRate, .int 40000), (kVPerHz, .int 0)],
    [(kMaxPower, .flt .nan), (kPwmRate, .int 40000), (kKv, .int 0)], ?_, ?_, ?_, ?_⟩
  · rw [migrate_down010a]; decide +kernel
  · rw [migrate_up010a]; decide +kernel
  · decide +kernel
  · decide +kernel

/-! ## Versions 0x0107 and 0x0108 -/

/-- C27: the default back EMF feedforward survives an upgrade to 0x0108 and
back, and so does every value other than zero. -/
theorem C27_bemf_partial (A : Arith) (family : Int) (d : Items) (x : Fl)
    (h : Holds A d kBemf x) (hx : feq x (.fin 0) = false) :
    ∃ d1 d2, migrate A 0x0107 0x0108 family d = .ok d1 ∧
      migrate A 0x0108 0x0107 family d1 = .ok d2 ∧ number A d2 kBemf = number A d kBemf := by
  rw [migrate_up0108]
  unfold up0108
  rw [h.or]
  by_cases h1 : feq x (.fin 1) = true
  · refine ⟨Tool.set d kBemf (.flt (.fin 0)), Tool.set (Tool.set d kBemf (.flt (.fin 0))) kBemf (.flt (.fin 1)),
      by simp only [ok_bind, h1, if_true]; rfl, ?_, ?_⟩
    · rw [migrate_down0108]; unfold down0108
      rw [Holds.or (holds_set)]; rfl
    · rw [holds_set.number, h.number]
      cases x with
      | nan => simp [feq] at h1
      | inf s => simp [feq] at h1
      | fin q => rw [feq_fin] at h1; rw [of_decide_eq_true h1]
  · refine ⟨d, d, by simp only [ok_bind, h1, Bool.false_eq_true, if_false]; rfl, ?_, rfl⟩
    rw [migrate_down0108]; unfold down0108
    rw [h.or]; simp only [ok_bind, hx, Bool.false_eq_true, if_false]; rfl

/-- C27 does not hold for a back EMF feedforward that was switched off before
0x0108: it comes back as 1; and in the other direction for one that was
switched on. -/
theorem C27_bemf_refuted :
    (∃ (d d1 d2 : Items), migrate doubles 0x0107 0x0108 0 d = .ok d1 ∧
      migrate doubles 0x0108 0x0107 0 d1 = .ok d2 ∧
      number doubles d kBemf = some (.ok (.fin 0)) ∧
      number doubles d2 kBemf = some (.ok (.fin 1))) ∧
    (∃ (d d1 d2 : Items), migrate doubles 0x0108 0x0107 0 d = .ok d1 ∧
      migrate doubles 0x0107 0x0108 0 d1 = .ok d2 ∧
      number doubles d kBemf = some (.ok (.fin 1)) ∧
      number doubles d2 kBemf = some (.ok (.fin 0))) := by
  refine ⟨⟨[(kBemf, .flt (.fin 0))], [(kBemf, .flt (.fin 0))], [(kBemf, .flt (.fin 1))],
    ?_, ?_, ?_, ?_⟩, ⟨[(kBemf, .flt (.fin 1))], [(kBemf, .flt (.fin 1))], [(kBemf, .flt (.fin 0))],
    ?_, ?_, ?_, ?_⟩⟩ <;> first
    | (rw [migrate_up0108]; decide +kernel)
    | (rw [migrate_down0108]; decide +kernel)
    | decide +kernel

/-- C27: an output direction of -1 is lost by a downgrade to 0x0106 (where it
did not work). -/
theorem C27_sign_refuted :
    ∃ (d d1 d2 : Items), migrate doubles 0x0107 0x0106 0 d = .ok d1 ∧
      migrate doubles 0x0106 0x0107 0 d1 = .ok d2 ∧
      number doubles d (kOutput "sign") = some (.ok (.fin (-1))) ∧
      number doubles d2 (kOutput "sign") = some (.ok (.fin 1)) := by
  refine ⟨[(kOutput "sign", .int (-1))], [(kOutput "sign", .int 1)], [(kOutput "sign", .int 1)],
    ?_, ?_, ?_, ?_⟩ <;> first
    | (rw [migrate_up0107]; decide +kernel)
    | (rw [migrate_down0107]; decide +kernel)
    | decide +kernel

/-! ## Version 0x0106: I2C poll rate -/

/-- C27 does not hold for the I2C poll rate: version 0x0105 only has `poll_ms`,
but the upgrade looks for the new name first, so that no configuration of
0x0105 gets a poll rate in the new unit. -/
theorem C27_poll_refuted (A : Arith) (family : Int) (d : Items)
    (h : ∀ x ∈ devices, get d (kDevice x.1 x.2 "poll_rate_us") = none) :
    migrate A 0x0105 0x0106 family d = .ok d := by
  rw [migrate_up0106]
  unfold up0106
  have : ∀ l : List (String × Nat), (∀ x ∈ l, get d (kDevice x.1 x.2 "poll_rate_us") = none) →
      l.foldlM (fun d x => upPoll x.1 x.2 d) d = .ok d := by
    intro l hl
    induction l with
    | nil => rfl
    | cons x l ih =>
      rw [List.foldlM_cons]
      have : upPoll x.1 x.2 d = .ok d := by
        unfold upPoll has
        rw [hl x (by simp)]; rfl
      rw [this, ok_bind]
      exact ih fun y hy => hl y (by simp [hy])
  exact this devices h

/-- The poll time of 5 ms stays behind under its old name. -/
example : get [(kDevice "aux2" 0 "poll_ms", Val.int 5)] (kDevice "aux2" 0 "poll_ms") =
      some (.int 5) ∧
    migrate doubles 0x0105 0x0106 0 [(kDevice "aux2" 0 "poll_ms", Val.int 5)] =
      .ok [(kDevice "aux2" 0 "poll_ms", Val.int 5)] :=
  ⟨by decide +kernel, C27_poll_refuted _ _ _ (by decide +kernel)⟩

/-! ## Version 0x0101: feedforward -/

/-- C27: the default feedforward survives an upgrade to 0x0101 and back. -/
theorem C27_feedforward_partial (A : Arith) (family : Int) (d : Items)
    (h : Holds A d kFeedforward (.fin 1)) :
    ∃ d1 d2, migrate A 0x0100 0x0101 family d = .ok d1 ∧
      Holds A d1 kFeedforward (.fin (1 / 2)) ∧
      migrate A 0x0101 0x0100 family d1 = .ok d2 ∧ Holds A d2 kFeedforward (.fin 1) := by
  obtain ⟨v, h1, h2⟩ := h
  refine ⟨Tool.set d kFeedforward (.flt (.fin (1 / 2))),
    Tool.set (Tool.set d kFeedforward (.flt (.fin (1 / 2)))) kFeedforward (.flt (.fin 1)),
    ?_, holds_set, ?_, holds_set⟩
  · rw [migrate_up0101]; unfold up0101 need; rw [h1, ok_bind, h2]; rfl
  · rw [migrate_down0101]; unfold down0101 need; rw [get_set, if_pos rfl]
    simp only [ok_bind, toFloat, feq_fin, decide_true, if_true]
    rfl

/-- C27 does not hold for another feedforward, which is zeroed; and the rule
is skipped by an upgrade past 0x0101, so that the result depends on the
versions in between. -/
theorem C27_feedforward_refuted :
    (∃ (d d1 d2 : Items), migrate doubles 0x0100 0x0101 0 d = .ok d1 ∧
      migrate doubles 0x0101 0x0100 0 d1 = .ok d2 ∧
      number doubles d kFeedforward = some (.ok (.fin (3 / 4))) ∧
      number doubles d2 kFeedforward = some (.ok (.fin 0))) ∧
    (∃ (d d1 d2 d3 : Items), migrate doubles 0x0100 0x0101 0 d = .ok d1 ∧
      migrate doubles 0x0101 0x0102 0 d1 = .ok d2 ∧
      migrate doubles 0x0100 0x0102 0 d = .ok d3 ∧
      number doubles d2 kFeedforward = some (.ok (.fin (1 / 2))) ∧
      number doubles d3 kFeedforward = some (.ok (.fin 1))) := by
  refine ⟨⟨[(kFeedforward, .flt (.fin (3 / 4)))], [(kFeedforward, .flt (.fin 0))],
    [(kFeedforward, .flt (.fin 0))], ?_, ?_, ?_, ?_⟩,
    ⟨[(kFeedforward, .flt (.fin 1))], [(kFeedforward, .flt (.fin (1 / 2)))],
    [(kFeedforward, .flt (.fin (1 / 2)))], [(kFeedforward, .flt (.fin 1))], ?_, ?_, ?_, ?_, ?_⟩⟩ <;>
    decide +kernel

/-! ## Versions 0x0103 and 0x0104: PWM compensation -/

/-- The three PWM compensation settings. -/
def Pwm (A : Arith) (d : Items) (mag off scale : Fl) : Prop :=
  Holds A d kCompMag mag ∧ Holds A d kCompOff off ∧ Holds A d kPwmScale scale

/-- C27: the PWM compensation defaults of 0x0103 become those of 0x0104, and
the downgrade reverts them. -/
theorem C27_pwm_0104 (A : Arith) (hA : ∀ q : ℚ, |q| ≤ 2 → ∃ r, A.rnd q = .fin r) (family : Int) (d : Items)
    (h : Pwm A d (A.rnd (11 / 1000)) (A.rnd (48 / 1000)) (A.rnd (115 / 100))) :
    ∃ d1 d2, migrate A 0x0103 0x0104 family d = .ok d1 ∧
      Pwm A d1 (A.rnd (5 / 1000)) (A.rnd (55 / 1000)) (.fin 1) ∧
      migrate A 0x0104 0x0103 family d1 = .ok d2 ∧
      Pwm A d2 (A.rnd (11 / 1000)) (A.rnd (48 / 1000)) (A.rnd (115 / 100)) := by
  have same (q : ℚ) (hq : |q| ≤ 2) : feq (A.rnd q) (A.rnd q) = true := by
    obtain ⟨r, hr⟩ := hA q hq; rw [hr, feq_fin]; simp
  have s11 := same (11 / 1000) (by norm_num [abs_of_pos])
  have s48 := same (48 / 1000) (by norm_num [abs_of_pos])
  have s5 := same (5 / 1000) (by norm_num [abs_of_pos])
  have s55 := same (55 / 1000) (by norm_num [abs_of_pos])
  obtain ⟨h1, h2, h3⟩ := h
  refine ⟨Tool.set (Tool.set (Tool.set d kCompOff (.flt (A.rnd (55 / 1000)))) kCompMag (.flt (A.rnd (5 / 1000))))
      kPwmScale (.flt (.fin 1)),
    Tool.set (Tool.set (Tool.set (Tool.set (Tool.set (Tool.set d kCompOff (.flt (A.rnd (55 / 1000)))) kCompMag
      (.flt (A.rnd (5 / 1000)))) kPwmScale (.flt (.fin 1))) kCompOff (.flt (A.rnd (48 / 1000)))) kCompMag
      (.flt (A.rnd (11 / 1000)))) kPwmScale (.flt (A.rnd (115 / 100))), ?_, ⟨?_, ?_, holds_set⟩, ?_, ⟨?_, ?_, ?_⟩⟩
  · rw [migrate_up0104]; unfold up0104
    rw [h1.or, h2.or]
    simp only [ok_bind, s11, s48, if_true, pure_bind]; rfl
  · exact (holds_set (d := Tool.set d kCompOff (.flt (A.rnd (55 / 1000))))).congr
      (by rw [get_set, if_neg (by decide)])
  · exact (holds_set (d := d)).congr
      (by rw [get_set, if_neg (by decide), get_set, if_neg (by decide)])
  · rw [migrate_down0104]; unfold down0104 floatOr
    simp only [get_set, if_neg (show ¬ kCompMag = kPwmScale by decide), if_true,
      if_neg (show ¬ kCompOff = kPwmScale by decide), if_neg (show ¬ kCompOff = kCompMag by decide),
      toFloat, ok_bind, s5, s55, pure_bind]
    rfl
  · exact (holds_set).congr (by rw [get_set, if_neg (by decide)])
  · exact (holds_set).congr (by rw [get_set, if_neg (by decide), get_set, if_neg (by decide)])
  · exact holds_set

/-- Doubles meet the requirement of `C27_pwm_0104`. -/
theorem doubles_small (q : ℚ) (h : |q| ≤ 2) : ∃ r, doubles.rnd q = .fin r := by
  refine ⟨b64.roundQ q, ?_⟩
  have fixed : b64.roundQ (2 : ℚ) = 2 := by decide +kernel
  have a := abs_le.1 h
  have u := roundQ_le_of_le (f := b64) (by decide) fixed a.2
  have l := le_roundQ_of_le (f := b64) (by decide) (y := -(2 : ℚ)) (by rw [roundQ_neg, fixed]) a.1
  show b64.round q = _
  unfold Fmt.round
  rw [if_pos]
  refine lt_of_le_of_lt (abs_le.2 ⟨l, u⟩) (lt_of_lt_of_le ?_ (pow2_le (by decide : (2 : ℤ) ≤ b64.emax)))
  rw [pow2_eq]; norm_num

example : Pwm doubles [(kCompMag, .flt (doubles.rnd (11 / 1000))),
    (kCompOff, .flt (doubles.rnd (48 / 1000))), (kPwmScale, .flt (doubles.rnd (115 / 100)))]
    (doubles.rnd (11 / 1000)) (doubles.rnd (48 / 1000)) (doubles.rnd (115 / 100)) :=
  ⟨⟨_, by rw [get_cons, if_pos rfl], rfl⟩,
    ⟨_, by rw [get_cons, if_neg (by decide), get_cons, if_pos rfl], rfl⟩,
    ⟨_, by rw [get_cons, if_neg (by decide), get_cons, if_neg (by decide), get_cons, if_pos rfl], rfl⟩⟩

/-- C27 does not hold for a PWM scale that was set by hand next to the default
compensation: it becomes 1.15. -/
theorem C27_pwm_refuted :
    ∃ (d d1 d2 : Items), migrate doubles 0x0103 0x0104 0 d = .ok d1 ∧
      migrate doubles 0x0104 0x0103 0 d1 = .ok d2 ∧
      number doubles d kPwmScale = some (.ok (.fin 1)) ∧
      number doubles d2 kPwmScale = some (.ok (doubles.rnd (115 / 100))) := by
  refine ⟨[(kCompMag, .flt (doubles.rnd (11 / 1000))), (kCompOff, .flt (doubles.rnd (48 / 1000))),
      (kPwmScale, .flt (.fin 1))],
    [(kCompMag, .flt (doubles.rnd (5 / 1000))), (kCompOff, .flt (doubles.rnd (55 / 1000))),
      (kPwmScale, .flt (.fin 1))],
    [(kCompMag, .flt (doubles.rnd (11 / 1000))), (kCompOff, .flt (doubles.rnd (48 / 1000))),
      (kPwmScale, .flt (doubles.rnd (115 / 100)))], ?_, ?_, ?_, ?_⟩ <;> decide +kernel

end Verif.Tool
