import Verif.Tool.MigrateTrip
import Mathlib.Tactic.FieldSimp

/-!
# Configuration migration: position offset, commutation offsets

Version 0x0105 moves the position offset from counts to revolutions; version
0x0109 unwraps the commutation offsets (C27).
-/

namespace Verif.Tool

open Verif.Float

/-! ## Version 0x0105 -/

section
variable (A : Arith) (d : Items)

/-- The settings that become the new position settings. -/
def isOld : Key → Prop := fun k => k = kPositionOffset ∨ k = kUnwrappedScale ∨ k = kInvert

theorem keeps_upAbs_old (k : Key) (hk : isOld k) : Keeps k (upAbs A d) d := by
  rcases hk with rfl | rfl | rfl
  all_goals
    unfold upAbs auxDevice auxSource
    keeps
    all_goals first
      | decide
      | (refine get_filter_ne (by decide) ?_; keeps <;> decide)

theorem keeps_upEncoder_old (k : Key) (hk : isOld k) : Keeps k (upEncoder d) d := by
  rcases hk with rfl | rfl | rfl
  all_goals
    unfold upEncoder
    keeps
    all_goals decide

/-- The new position settings. -/
def isNew : Key → Prop := fun k => k = kOutput "offset" ∨ k = kSource 0 "sign" ∨ k = kRatio

theorem keeps_upFilter_new (p : ℚ) (k : Key) (hk : isNew k) : Keeps k (upFilter A p d) d := by
  rcases hk with rfl | rfl | rfl
  all_goals
    unfold upFilter
    keeps
    all_goals decide

theorem keeps_upPwmRate_new (k : Key) (hk : isNew k) : Keeps k (upPwmRate d) d := by
  have : k ≠ kPwmRate := by rcases hk with rfl | rfl | rfl <;> decide
  unfold upPwmRate
  split <;> keeps

theorem bind_ok {α β : Type} {m : M α} {f : α → M β} {b : β} (h : (m >>= f) = .ok b) :
    ∃ a, m = .ok a ∧ f a = .ok b := by
  cases m with
  | error e => cases h
  | ok a => exact ⟨a, rfl, h⟩

theorem need_ok {d : Items} {k : Key} {v : Val} (h : need d k = .ok v) : get d k = some v := by
  unfold need at h
  split at h
  · next w hw => cases h; exact hw
  · cases h

theorem pop_ok {d : Items} {k : Key} {r : Val × Items} (h : pop d k = .ok r) :
    get d k = some r.1 ∧ r.2 = drop d k := by
  unfold pop at h
  obtain ⟨v, h1, h2⟩ := bind_ok h
  cases h2
  exact ⟨need_ok h1, rfl⟩

/-- What an upgrade to 0x0105 writes. -/
theorem upOffset_spec (d d1 : Items) (h : upOffset A d = .ok d1) :
    ∃ v w n r q inv, get d kPositionOffset = some v ∧ toFloat A v = .ok n ∧
      get d kUnwrappedScale = some w ∧ toFloat A w = .ok r ∧
      fdiv A n (.fin 65536) = .ok q ∧ intOr d kInvert 0 = .ok inv ∧
      get d1 (kOutput "offset") = some (.flt (fmul A q r)) ∧
      get d1 (kSource 0 "sign") = some (if inv ≠ 0 then .int (-1) else .int 1) ∧
      get d1 kRatio = some w := by
  unfold upOffset at h
  obtain ⟨⟨v, e1⟩, h1, h⟩ := bind_ok h
  obtain ⟨hv, rfl⟩ := pop_ok h1
  obtain ⟨n, hn, h⟩ := bind_ok h
  obtain ⟨w, h2, h⟩ := bind_ok h
  obtain ⟨r, hr, h⟩ := bind_ok h
  obtain ⟨q, hq, h⟩ := bind_ok h
  obtain ⟨inv, hi, h⟩ := bind_ok h
  obtain ⟨⟨w', e2⟩, h3, h⟩ := bind_ok h
  obtain ⟨hw, rfl⟩ := pop_ok h3
  cases h
  have h2 := need_ok h2
  rw [get_drop, if_neg (by decide)] at h2
  rw [get_set, if_neg (by decide), get_drop, if_neg (by decide), get_set, if_neg (by decide),
    get_drop, if_neg (by decide), h2] at hw
  obtain rfl : w = w' := by injection hw
  have hi' : intOr d kInvert 0 = .ok inv := by
    unfold intOr at hi ⊢
    rwa [get_set, if_neg (by decide), get_drop, if_neg (by decide)] at hi
  refine ⟨v, w, n, r, q, inv, hv, hn, h2, hr, hq, hi', ?_, ?_, ?_⟩
  · rw [get_set, if_neg (by decide), get_drop, if_neg (by decide), get_set, if_neg (by decide),
      get_drop, if_neg (by decide), get_set, if_pos rfl]
  · rw [get_set, if_neg (by decide), get_drop, if_neg (by decide), get_set, if_pos rfl]
  · rw [get_set, if_pos rfl]

/-- What the whole upgrade to 0x0105 makes of the position settings. -/
theorem up0105_spec (family : Int) (d d1 : Items)
    (h : migrate A 0x0104 0x0105 family d = .ok d1) :
    ∃ v w n r q inv, get d kPositionOffset = some v ∧ toFloat A v = .ok n ∧
      get d kUnwrappedScale = some w ∧ toFloat A w = .ok r ∧
      fdiv A n (.fin 65536) = .ok q ∧ intOr d kInvert 0 = .ok inv ∧
      get d1 (kOutput "offset") = some (.flt (fmul A q r)) ∧
      get d1 (kSource 0 "sign") = some (if inv ≠ 0 then .int (-1) else .int 1) ∧
      get d1 kRatio = some w := by
  rw [migrate_up0105] at h
  unfold up0105 at h
  obtain ⟨e1, h1, h⟩ := bind_ok h
  obtain ⟨e2, h2, h⟩ := bind_ok h
  obtain ⟨e3, h3, h⟩ := bind_ok h
  obtain ⟨e4, h4, h⟩ := bind_ok h
  have old (k : Key) (hk : isOld k) : get e2 k = get d k := by
    rw [keeps_upEncoder_old e1 k hk e2 h2, keeps_upAbs_old A d k hk e1 h1]
  have new (k : Key) (hk : isNew k) : get d1 k = get e3 k := by
    rw [keeps_upPwmRate_new e4 k hk d1 h, keeps_upFilter_new A e3 _ k hk e4 h4]
  obtain ⟨v, w, n, r, q, inv, a1, a2, a3, a4, a5, a6, a7, a8, a9⟩ := upOffset_spec A e2 e3 h3
  refine ⟨v, w, n, r, q, inv, ?_, a2, ?_, a4, a5, ?_, ?_, ?_, ?_⟩
  · rw [← old _ (Or.inl rfl), a1]
  · rw [← old _ (Or.inr (Or.inl rfl)), a3]
  · unfold intOr at a6 ⊢; rwa [← old _ (Or.inr (Or.inr rfl))]
  · rw [new _ (Or.inl rfl), a7]
  · rw [new _ (Or.inr (Or.inl rfl)), a8]
  · rw [new _ (Or.inr (Or.inr rfl)), a9]

end

/-- A 0x0105 configuration that a downgrade maps: the onboard encoder only. -/
structure Onboard (A : Arith) (d : Items) : Prop where
  spi : get d [.n "aux1", .n "spi", .n "mode"] = some (.int 0)
  type : get d [.n "motor_position", .n "sources", .i 0, .n "type"] = some (.int 1)
  commutation : get d [.n "motor_position", .n "commutation_source"] = some (.int 0)
  source : get d [.n "motor_position", .n "output", .n "source"] = some (.int 0)
  reference : get d [.n "motor_position", .n "output", .n "reference_source"] = some (.int (-1))
  offset : Holds A d [.n "motor_position", .n "sources", .i 0, .n "offset"] (.fin 0)
  sign : get d [.n "motor_position", .n "output", .n "sign"] = some (.int 1)

theorem down0105_spec (A : Arith) (family : Int) (d : Items) (hd : Onboard A d)
    (x r : ℚ) (w : Val) (s n : Int) (q : ℚ) (hr : r ≠ 0)
    (h1 : Holds A d (kOutput "offset") (.fin x)) (h2 : get d kRatio = some w)
    (h3 : toFloat A w = .ok (.fin r)) (h4 : get d (kSource 0 "sign") = some (.int s))
    (h5 : A.rnd (x / r) = .fin q) (h6 : ftrunc (A.rnd (q * 65536)) = .ok n) :
    ∃ d1, migrate A 0x0105 0x0104 family d = .ok d1 ∧
      get d1 kPositionOffset = some (.int n) ∧ get d1 kUnwrappedScale = some w ∧
      get d1 kInvert = some (if s = -1 then .int 1 else .int 0) ∧
      ∀ k, isNew0105 k = true → get d1 k = none := by
  obtain ⟨b1, b2, b3, b4, b5, ⟨z, b6, b6'⟩, b7⟩ := hd
  obtain ⟨y, h1, h1'⟩ := h1
  change get d (kOutput "offset") = some y at h1
  change get d kSpiMode = some (.int 0) at b1
  change get d (kSource 0 "type") = some (.int 1) at b2
  change get d kCommutation = some (.int 0) at b3
  change get d (kOutput "source") = some (.int 0) at b4
  change get d (kOutput "reference_source") = some (.int (-1)) at b5
  change get d (kSource 0 "offset") = some z at b6
  change get d (kOutput "sign") = some (.int 1) at b7
  have all : orM [
      intIsNot d kSpiMode 0,
      intIsNot d (kSource 0 "type") 1,
      intIsNot d kCommutation 0,
      intIsNot d (kOutput "source") 0,
      intIsNot d (kOutput "reference_source") (-1),
      (do let v ← need d (kSource 0 "offset")
          let x ← toFloat A v
          pure (!feq x (.fin 0))),
      intIsNot d (kOutput "sign") 1] = .ok false := by
    simp only [orM, intIsNot, need, b1, b2, b3, b4, b5, b6, b7, b6', ok_bind, toInt, feq_fin]
    rfl
  set e1 := Tool.set (drop d (kSource 0 "sign")) kInvert (if s = -1 then .int 1 else .int 0) with he1
  set e2 := Tool.set e1 kPositionOffset (.int n) with he2
  set e3 := Tool.set (drop e2 kRatio) kUnwrappedScale w with he3
  have g1 : get e1 (kOutput "offset") = some y := by
    rw [he1, get_set, if_neg (by decide), get_drop, if_neg (by decide), h1]
  have g2 : get e1 kRatio = some w := by
    rw [he1, get_set, if_neg (by decide), get_drop, if_neg (by decide), h2]
  have g3 : get e2 kRatio = some w := by rw [he2, get_set, if_neg (by decide), g2]
  refine ⟨e3.filter fun e => !isNew0105 e.1, ?_, ?_, ?_, ?_, ?_⟩
  · rw [migrate_down0105]
    unfold down0105
    rw [all]
    simp only [ok_bind, Bool.false_eq_true, if_false]
    unfold pop need
    simp only [h4, ok_bind, pure_bind, toInt, ← he1, g1, g2, h1', h3, fdiv_fin A x r hr, h5, fmul,
      h6, ← he2, g3, ← he3]
    rfl
  · rw [get_filter e3 (fun k => !isNew0105 k), if_pos (by decide), he3, get_set, if_neg (by decide),
      get_drop, if_neg (by decide), he2, get_set, if_pos rfl]
  · rw [get_filter e3 (fun k => !isNew0105 k), if_pos (by decide), he3, get_set, if_pos rfl]
  · rw [get_filter e3 (fun k => !isNew0105 k), if_pos (by decide), he3, get_set, if_neg (by decide),
      get_drop, if_neg (by decide), he2, get_set, if_neg (by decide), he1, get_set, if_pos rfl]
  · intro k hk
    rw [get_filter e3 (fun k => !isNew0105 k), if_neg (by simp [hk])]

/-- C27, exact arithmetic: the position offset in counts, the scale and the
direction of a 0x0104 configuration survive an upgrade to 0x0105 and back, as
long as the firmware in between holds an otherwise unchanged onboard encoder. -/
theorem C27_offset_0105 (family : Int) (d d1 d1' : Items) (n : Int) (r : ℚ) (inv : Int)
    (h : migrate exact 0x0104 0x0105 family d = .ok d1)
    (hn : get d [.n "motor", .n "position_offset"] = some (.int n))
    (hr : Holds exact d [.n "motor", .n "unwrapped_position_scale"] (.fin r)) (hr0 : r ≠ 0)
    (hi : get d [.n "motor", .n "invert"] = some (.int inv)) (hinv : inv = 0 ∨ inv = 1)
    (hd : Onboard exact d1')
    (same : ∀ k ∈ [[Comp.n "motor_position", .n "output", .n "offset"],
        [.n "motor_position", .n "sources", .i 0, .n "sign"],
        [.n "motor_position", .n "rotor_to_output_ratio"]], get d1' k = get d1 k) :
    ∃ d2, migrate exact 0x0105 0x0104 family d1' = .ok d2 ∧
      get d2 [.n "motor", .n "position_offset"] = some (.int n) ∧
      get d2 [.n "motor", .n "unwrapped_position_scale"] =
        get d [.n "motor", .n "unwrapped_position_scale"] ∧
      get d2 [.n "motor", .n "invert"] = some (.int inv) := by
  obtain ⟨v, w, n', r', q, inv', a1, a2, a3, a4, a5, a6, a7, a8, a9⟩ := up0105_spec exact family d d1 h
  change get d kPositionOffset = some (.int n) at hn
  obtain ⟨w', hw, hw'⟩ := hr
  change get d kUnwrappedScale = some w' at hw
  change get d kInvert = some (.int inv) at hi
  rw [hn] at a1; cases a1
  rw [hw] at a3; injection a3 with a3; subst a3
  rw [hw'] at a4; cases a4
  cases a2
  change fdiv exact (.fin (n : ℚ)) (.fin 65536) = _ at a5
  rw [fdiv_fin exact _ _ (by norm_num)] at a5; cases a5
  simp only [intOr, hi, toInt] at a6; cases a6
  have b7 := (same (kOutput "offset") (by simp [kOutput])).trans a7
  have b8 := (same (kSource 0 "sign") (by simp [kSource])).trans a8
  have b9 := (same kRatio (by simp [kRatio])).trans a9
  have b8' : get d1' (kSource 0 "sign") = some (.int (if inv ≠ 0 then -1 else 1)) := by
    rw [b8]; split <;> rfl
  obtain ⟨d2, c1, c2, c3, c4, _⟩ := down0105_spec exact family d1' hd ((n : ℚ) / 65536 * r) r w'
    (if inv ≠ 0 then -1 else 1) n ((n : ℚ) / 65536) hr0 ⟨_, b7, rfl⟩ b9 hw' b8'
    (by simp only [exact]; congr 1; field_simp)
    (by
      have : (n : ℚ) / 65536 * 65536 = n := by field_simp
      simp only [exact, this, ftrunc, Int.floor_intCast, Int.ceil_intCast, ite_self])
  refine ⟨d2, c1, c2, c3.trans hw.symm, ?_⟩
  change get d2 kInvert = _
  rw [c4]
  rcases hinv with rfl | rfl <;> simp

/-- The settings with which the firmware completes a 0x0105 configuration. -/
def firmware0105 : Items :=
  [(kSpiMode, .int 0), (kSource 0 "type", .int 1), (kCommutation, .int 0),
   (kOutput "source", .int 0), (kOutput "reference_source", .int (-1)),
   (kSource 0 "offset", .int 0), (kOutput "sign", .int 1)]

/-- A concrete case of `C27_offset_0105`. -/
example : ∃ d1, migrate exact 0x0104 0x0105 0 [(kPositionOffset, .int 43),
      (kUnwrappedScale, .flt (.fin (1 / 10))), (kInvert, .int 1)] = .ok d1 ∧
    Onboard exact (firmware0105 ++ d1) ∧
    get d1 (kSource 0 "sign") = some (.int (-1)) := by
  refine ⟨[(kOutput "offset", .flt (.fin (43 / 655360))), (kSource 0 "sign", .int (-1)),
    (kRatio, .flt (.fin (1 / 10)))], by decide +kernel, ?_, rfl⟩
  exact ⟨rfl, rfl, rfl, rfl, rfl, ⟨.int 0, rfl, rfl⟩, rfl⟩

/-- C27 does not hold for the position offset in doubles: with a scale of 0.1,
43 counts come back as 42. -/
theorem C27_offset_refuted :
    ∃ (d d1 d2 : Items), migrate doubles 0x0104 0x0105 0 d = .ok d1 ∧
      migrate doubles 0x0105 0x0104 0 (firmware0105 ++ d1) = .ok d2 ∧
      get d kPositionOffset = some (.int 43) ∧ get d2 kPositionOffset = some (.int 42) := by
  let d : Items := [(kPositionOffset, .int 43), (kUnwrappedScale, .flt (doubles.rnd (1 / 10))),
    (kInvert, .int 0)]
  let d1 : Items := [(kOutput "offset", .flt (fmul doubles (doubles.rnd (43 / 65536)) (doubles.rnd (1 / 10)))),
    (kSource 0 "sign", .int 1), (kRatio, .flt (doubles.rnd (1 / 10)))]
  let d2 : Items := [(kInvert, .int 0), (kPositionOffset, .int 42),
    (kUnwrappedScale, .flt (doubles.rnd (1 / 10)))]
  exact ⟨d, d1, d2, by decide +kernel, by decide +kernel, rfl, rfl⟩

/-- C27 does not hold for the PWM rate: 40 kHz becomes 30 kHz and stays so. -/
theorem C27_pwm_rate_refuted :
    ∃ (d d1 d2 : Items), migrate doubles 0x0104 0x0105 0 d = .ok d1 ∧
      migrate doubles 0x0105 0x0104 0 (firmware0105 ++ d1) = .ok d2 ∧
      get d kPwmRate = some (.int 40000) ∧ get d2 kPwmRate = some (.int 30000) := by
  let d : Items := [(kPositionOffset, .int 0), (kUnwrappedScale, .int 1), (kPwmRate, .int 40000)]
  let d1 : Items := [(kPwmRate, .int 30000), (kOutput "offset", .flt (.fin 0)),
    (kSource 0 "sign", .int 1), (kRatio, .int 1)]
  let d2 : Items := [(kPwmRate, .int 30000), (kInvert, .int 0), (kPositionOffset, .int 0),
    (kUnwrappedScale, .int 1)]
  exact ⟨d, d1, d2, by decide +kernel, by decide +kernel, rfl, rfl⟩

/-! ## Version 0x0109: commutation offsets -/

/-- A wrap to half a period around zero, in exact arithmetic. -/
structure Wraps (A : Arith) (P : ℚ) : Prop where
  rnd : ∀ q, A.rnd q = .fin q
  wrap : ∀ q, ∃ k : ℤ, A.wrap (.fin q) = some (.fin (q - k * P)) ∧ |q - k * P| ≤ P / 2

/-- `xs` and `ys` agree up to whole periods. -/
def Congruent (P : ℚ) (xs ys : List ℚ) : Prop :=
  List.Forall₂ (fun x y => ∃ k : ℤ, y = x - k * P) xs ys

/-- Consecutive elements are at most half a period apart. -/
def Smooth (P : ℚ) : List ℚ → Prop
  | x :: y :: zs => |y - x| ≤ P / 2 ∧ Smooth P (y :: zs)
  | _ => True

theorem unwrap_spec (A : Arith) (P : ℚ) (h : Wraps A P) (last : ℚ) (xs : List ℚ) :
    ∃ ys : List ℚ, unwrapOffsets A (.fin last) (xs.map .fin) = .ok (ys.map .fin) ∧
      Congruent P xs ys ∧ Smooth P (last :: ys) := by
  induction xs generalizing last with
  | nil => exact ⟨[], rfl, .nil, trivial⟩
  | cons x xs ih =>
    obtain ⟨k, hk, hb⟩ := h.wrap (x - last)
    obtain ⟨ys, h1, h2, h3⟩ := ih (last + (x - last - k * P))
    refine ⟨(last + (x - last - k * P)) :: ys, ?_, .cons ⟨k, by ring⟩ h2, ?_, h3⟩
    · have e : fsub A (.fin x) (.fin last) = .fin (x - last) := by
        unfold fsub fadd Fl.neg; simp only [h.rnd]; congr 1; ring
      have e2 : fadd A (.fin last) (.fin (x - last - k * P)) = .fin (last + (x - last - k * P)) := by
        exact h.rnd _
      simp only [List.map_cons, unwrapOffsets, e, wrapM, hk, ok_bind, e2, h1]
      rfl
    · rw [add_sub_cancel_left]; exact hb

theorem foldl_fin (A : Arith) (h : ∀ q, A.rnd q = .fin q) (xs : List ℚ) (a : ℚ) :
    (xs.map Fl.fin).foldl (fadd A) (.fin a) = .fin (a + xs.sum) := by
  induction xs generalizing a with
  | nil => simp
  | cons x xs ih =>
    simp only [List.map_cons, List.foldl_cons, List.sum_cons]
    rw [show fadd A (.fin a) (.fin x) = .fin (a + x) from h _, ih]
    congr 1; ring

theorem congruent_shift {P : ℚ} {xs ys : List ℚ} (h : Congruent P xs ys) (k : ℤ) :
    Congruent P xs (ys.map fun y => y - k * P) := by
  induction h with
  | nil => exact .nil
  | cons a _ ih =>
    obtain ⟨j, hj⟩ := a
    exact .cons ⟨j + k, by rw [hj]; push_cast; ring⟩ ih

theorem smooth_shift (P c : ℚ) : ∀ xs : List ℚ, Smooth P xs → Smooth P (xs.map fun y => y - c)
  | [], _ => trivial
  | [_], _ => trivial
  | x :: y :: zs, ⟨h1, h2⟩ =>
    ⟨by simpa using h1, smooth_shift P c (y :: zs) h2⟩

theorem sum_shift (c : ℚ) (xs : List ℚ) :
    (xs.map fun y => y - c).sum = xs.sum - xs.length * c := by
  induction xs with
  | nil => simp
  | cons x xs ih => simp only [List.map_cons, List.sum_cons, List.length_cons, ih]; push_cast; ring

/-- C27: the commutation offsets that an upgrade to 0x0109 computes describe
the same angles, are free of jumps and have a mean within half a period. -/
theorem C27_offsets_exact (A : Arith) (P : ℚ) (h : Wraps A P) (xs : List ℚ) (hx : xs ≠ []) :
    ∃ ys : List ℚ, fixOffsets A (xs.map .fin) = .ok (ys.map .fin) ∧ Congruent P xs ys ∧
      Smooth P ys ∧ |ys.sum / ys.length| ≤ P / 2 := by
  obtain ⟨x, xs, rfl⟩ := List.exists_cons_of_ne_nil hx
  obtain ⟨ys, h1, h2, h3⟩ := unwrap_spec A P h x xs
  have hc : Congruent P (x :: xs) (x :: ys) := .cons ⟨0, by simp⟩ h2
  have hl : ((x :: ys).length : ℚ) ≠ 0 := by simp; positivity
  obtain ⟨k, hk, hb⟩ := h.wrap ((x :: ys).sum / (x :: ys).length)
  refine ⟨(x :: ys).map fun y => y - k * P, ?_, congruent_shift hc k,
    smooth_shift _ _ _ h3, ?_⟩
  · unfold fixOffsets
    simp only [List.map_cons, h1, ok_bind, pure_bind]
    rw [← List.map_cons, foldl_fin A h.rnd, zero_add, h.rnd, List.length_map]
    rw [fdiv_fin A _ _ hl, ok_bind, h.rnd]
    unfold wrapM
    simp only [hk, ok_bind]
    have e : fsub A (.fin ((x :: ys).sum / (x :: ys).length))
        (.fin ((x :: ys).sum / (x :: ys).length - k * P)) = .fin (k * P) := by
      unfold fsub fadd Fl.neg; simp only [h.rnd]; congr 1; ring
    rw [e]
    have e2 (y : ℚ) : fsub A (.fin y) (.fin (k * P)) = .fin (y - k * P) := by
      unfold fsub fadd Fl.neg; simp only [h.rnd]; congr 1; ring
    simp only [List.map_map, List.map_cons, e2, Function.comp_def]
    rfl
  · rw [sum_shift, List.length_map]
    have : ((x :: ys).sum - (x :: ys).length * (k * P)) / (x :: ys).length =
        (x :: ys).sum / (x :: ys).length - k * P := by field_simp
    rw [this]; exact hb

/-- Exact arithmetic with a wrap of period `P`. -/
def exactWrap (P : ℚ) : Arith :=
  ⟨.fin, fun | .fin q => some (.fin (q - round (q / P) * P)) | x => some x⟩

theorem exactWrap_wraps (P : ℚ) (hP : 0 < P) : Wraps (exactWrap P) P := by
  refine ⟨fun _ => rfl, fun q => ⟨round (q / P), rfl, ?_⟩⟩
  have h := abs_sub_round (q / P)
  have : q - round (q / P) * P = (q / P - round (q / P)) * P := by field_simp
  rw [this, abs_mul, abs_of_pos hP]
  nlinarith

/-- Offsets that jump by a period. -/
example : fixOffsets (exactWrap 6) ([5, -1, 0].map .fin) = .ok ([-1, -1, 0].map .fin) := by
  decide +kernel

/-- C27 does not hold without commutation offsets: the upgrade raises
ZeroDivisionError. -/
theorem C27_offsets_refuted (A : Arith) (h0 : A.rnd 0 = .fin 0) (family : Int) (d : Items)
    (h : get d (kOffset 0) = none) : migrate A 0x0108 0x0109 family d = .error .zeroDivision := by
  rw [migrate_up0109]
  unfold up0109a readOffsets
  simp only [h, ok_bind]
  unfold fixOffsets
  simp only [List.length_nil, List.foldl_nil, pure_bind, Nat.cast_zero, h0]
  rfl

end Verif.Tool
