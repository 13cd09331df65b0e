import Verif.Fw.Trajectory
import Verif.Float.Near

/-!
# Position bounds of position mode

Property C35, over any sequence of commands and control cycles.
-/

namespace Verif.Fw

open Verif.Float

/-! ## Conversions between turns and raw positions -/

theorem truncQ_spec (q : ℚ) :
    |(truncQ q : ℚ) - q| < 1 ∧ (0 ≤ q → 0 ≤ truncQ q ∧ (truncQ q : ℚ) ≤ q) ∧
      (q ≤ 0 → truncQ q ≤ 0 ∧ q ≤ truncQ q) := by
  unfold truncQ
  have a1 := floor_le' q
  have a2 := lt_floor_succ' q
  have b1 := floor_le' (-q)
  have b2 := lt_floor_succ' (-q)
  split
  · rename_i h
    have h0 : 0 ≤ q.floor := by rw [Rat.le_floor_iff (x := 0) (a := q)]; exact_mod_cast h
    refine ⟨by rw [abs_lt]; constructor <;> linarith, fun _ => ⟨h0, a1⟩, fun h' => ?_⟩
    have : q = 0 := le_antisymm h' h
    subst this
    exact ⟨by exact_mod_cast a1, by exact_mod_cast h0⟩
  · rename_i h
    rw [not_le] at h
    have h0 : 0 ≤ (-q).floor := by
      rw [Rat.le_floor_iff (x := 0) (a := -q)]; push_cast; linarith
    refine ⟨by rw [abs_lt]; push_cast; constructor <;> linarith, fun h' => absurd h' (by linarith),
      fun _ => ⟨by omega, by push_cast; linarith⟩⟩

/-- The raw unit of a position: 2^-48 turns. -/
def turns (raw : ℤ) : ℚ := (raw : ℚ) / 281474976710656

variable {A : Ar}

theorem lit65536 (hA : A.Law2) : A.lit 65536 = .fin 65536 := by
  have := hA.rep_int (n := 65536) (by norm_num)
  have h := this.rnd
  push_cast at h
  exact h

theorem mul65536 (hA : A.Law2) {q : ℚ} (hq : A.Rep q) (hs : |q| ≤ 32768) :
    A.mul (A.lit 65536) (.fin q) = .fin (q * 65536) := by
  have e : pow2 16 = 65536 := by decide +kernel
  have := hA.scale hq (k := 16) (by norm_num) (by
    rw [abs_mul, abs_of_pos (pow2_pos 16), e]
    have h2 : (2147483648 : ℚ) ≤ pow2 127 := by decide +kernel
    linarith)
  rw [lit65536 hA]
  show A.rnd (65536 * q) = _
  rw [mul_comm, ← e]
  exact this.rnd

/-- `FloatToInt` truncates to multiples of 2^-16 turns. -/
theorem floatToInt_eq (hA : A.Law2) {q : ℚ} (hq : A.Rep q) (hs : |q| < 32768) :
    floatToInt A (.fin q) = 4294967296 * truncQ (q * 65536) := by
  unfold floatToInt
  rw [mul65536 hA hq hs.le]
  simp only [toI32]
  have h := truncQ_spec (q * 65536)
  rw [abs_lt] at h hs
  have h1 : (-2147483648 : ℚ) < q * 65536 := by linarith
  have h2 : q * 65536 < 2147483648 := by linarith
  have l : -2147483648 ≤ truncQ (q * 65536) := by
    rcases le_total 0 (q * 65536) with hh | hh
    · have := (h.2.1 hh).1; omega
    · have := (h.2.2 hh).2
      have : (-2147483648 : ℚ) < (truncQ (q * 65536) : ℚ) := by linarith
      have : (-2147483648 : ℤ) < truncQ (q * 65536) := by exact_mod_cast this
      omega
  have u : truncQ (q * 65536) ≤ 2147483647 := by
    rcases le_total 0 (q * 65536) with hh | hh
    · have := (h.2.1 hh).2
      have : (truncQ (q * 65536) : ℚ) < 2147483648 := by linarith
      have : truncQ (q * 65536) < (2147483648 : ℤ) := by exact_mod_cast this
      omega
    · have := (h.2.2 hh).1; omega
  rw [max_eq_right (by omega), min_eq_right u]

theorem turns_floatToInt (hA : A.Law2) {q : ℚ} (hq : A.Rep q) (hs : |q| < 32768) :
    |turns (floatToInt A (.fin q)) - q| < 1 / 65536 ∧
    (0 ≤ q → turns (floatToInt A (.fin q)) ≤ q) ∧ (q ≤ 0 → q ≤ turns (floatToInt A (.fin q))) := by
  rw [floatToInt_eq hA hq hs]
  obtain ⟨h1, h2, h3⟩ := truncQ_spec (q * 65536)
  unfold turns
  push_cast
  rw [abs_lt] at h1
  refine ⟨?_, fun h => ?_, fun h => ?_⟩
  · rw [abs_lt]; constructor <;> linarith
  · have := (h2 (by linarith)).2; linarith
  · have := (h3 (by linarith)).2; linarith

/-! ## The bounds -/

theorem saturateMin_eq {v : Fl} (hv : v ≠ .nan) (delta p : ℤ) (h : Bool) :
    saturateMin A v delta (p, h) =
      if p + delta < floatToInt A v then (floatToInt A v - delta, true) else (p, h) := by
  have nv : v.isNan = false := by cases v <;> simp_all [Fl.isNan]
  unfold saturateMin
  rw [nv]
  by_cases g : p + delta < floatToInt A v
  · rw [if_pos g]; exact if_pos (show p - (floatToInt A v - delta) < 0 by omega)
  · rw [if_neg g]; exact if_neg (show ¬ p - (floatToInt A v - delta) < 0 by omega)

theorem saturateMax_eq {v : Fl} (hv : v ≠ .nan) (delta p : ℤ) (h : Bool) :
    saturateMax A v delta (p, h) =
      if floatToInt A v < p + delta then (floatToInt A v - delta, true) else (p, h) := by
  have nv : v.isNan = false := by cases v <;> simp_all [Fl.isNan]
  unfold saturateMax
  rw [nv]
  by_cases g : floatToInt A v < p + delta
  · rw [if_pos g]; exact if_pos (show p - (floatToInt A v - delta) > 0 by omega)
  · rw [if_neg g]; exact if_neg (show ¬ p - (floatToInt A v - delta) > 0 by omega)

/-- What ordered bounds do to a position. -/
theorem bounds_eq (c : TrajConfig) (hlo : c.positionMin ≠ .nan) (hhi : c.positionMax ≠ .nan)
    (hle : floatToInt A c.positionMin ≤ floatToInt A c.positionMax) (delta cp : ℤ) :
    bounds A c false delta cp =
      if cp + delta < floatToInt A c.positionMin then (floatToInt A c.positionMin - delta, true)
      else if floatToInt A c.positionMax < cp + delta then
        (floatToInt A c.positionMax - delta, true)
      else (cp, false) := by
  unfold bounds
  rw [if_neg (by simp), saturateMin_eq hlo]
  by_cases g1 : cp + delta < floatToInt A c.positionMin
  · rw [if_pos g1, if_pos g1, saturateMax_eq hhi, if_neg (by omega)]
  · rw [if_neg g1, if_neg g1, saturateMax_eq hhi]

/-- The configuration with other position bounds. -/
def TrajConfig.withBounds (c : TrajConfig) (lo hi : Fl) : TrajConfig :=
  { c with positionMin := lo, positionMax := hi }

theorem prepare_data (c : TrajConfig) (i : TrajIn) (s : TrajStatus) (d : TrajData) :
    (prepare A c i s d).d.stopRaw = d.stopRaw ∧
    (prepare A c i s d).d.ignoreBounds = d.ignoreBounds := by
  have hb : ∀ v, (begin i c v s d).2.stopRaw = d.stopRaw ∧
      (begin i c v s d).2.ignoreBounds = d.ignoreBounds := by
    intro v
    unfold begin
    dsimp only
    repeat' split
    all_goals exact ⟨rfl, rfl⟩
  have ha : ∀ v s d, (advance A i v s d).2.stopRaw = d.stopRaw ∧
      (advance A i v s d).2.ignoreBounds = d.ignoreBounds := by
    intro v s d
    unfold advance updateTrajectory
    dsimp only
    split
    · exact ⟨rfl, rfl⟩
    · split
      · exact ⟨rfl, rfl⟩
      · dsimp only; split <;> exact ⟨rfl, rfl⟩
  unfold prepare
  exact ⟨by dsimp only; rw [(ha _ _ _).1, (hb _).1], by dsimp only; rw [(ha _ _ _).2, (hb _).2]⟩

/-- The outcome of `UpdateCommand` in terms of its last two stages; the stages
before do not depend on the bounds. -/
theorem updateCommand_finish (c : TrajConfig) (i : TrajIn) (s : TrajStatus) (d : TrajData) :
    ∃ (vc cv : Fl) (cp : ℤ) (s' : TrajStatus) (d' : TrajData),
      d'.stopRaw = d.stopRaw ∧ d'.ignoreBounds = d.ignoreBounds ∧
      ∀ lo hi, updateCommand A (c.withBounds lo hi) i s d =
        finish A i vc (bounds A (c.withBounds lo hi) d.ignoreBounds i.delta cp).1
          (bounds A (c.withBounds lo hi) d.ignoreBounds i.delta cp).2 cv s' d' := by
  have h := prepare_data (A := A) c i s d
  refine ⟨(prepare A c i s d).velocityCommand, (prepare A c i s d).cv, (prepare A c i s d).cp,
    (prepare A c i s d).s, (prepare A c i s d).d, h.1, h.2, ?_⟩
  intro lo hi
  unfold updateCommand
  rw [show prepare A (c.withBounds lo hi) i s d = prepare A c i s d from rfl]
  dsimp only
  rw [h.2]

/-- Operations that change the position command: a new command, a control
cycle, and a reset of the control position (`ISR_ClearPid`,
`RecapturePositionVelocity`). -/
inductive TrajOp
  | command (d : TrajData)
  | cycle (i : TrajIn)
  | recapture

/-- State, active command, velocity command of the last cycle. -/
structure TrajRun where
  s : TrajStatus
  d : TrajData
  vc : Fl
deriving DecidableEq

def trajStep (A : Ar) (c : TrajConfig) (r : TrajRun) : TrajOp → TrajRun
  | .command d => { r with d }
  | .cycle i => let u := updateCommand A c i r.s r.d; ⟨u.2.1, u.2.2, u.1⟩
  | .recapture => { r with s := { r.s with cp := none, controlPosition := .nan, cv := none } }

def trajRun (A : Ar) (c : TrajConfig) (r : TrajRun) (ops : List TrajOp) : TrajRun :=
  ops.foldl (trajStep A c) r

/-- Within bounds, as the user configured them in turns: between `lo` and `hi`
up to the resolution of 2^-16 turns, and exactly when the bound has the usual
sign. -/
def InBounds (lo hi p : ℚ) : Prop :=
  lo - 1 / 65536 < p ∧ p < hi + 1 / 65536 ∧ (lo ≤ 0 → lo ≤ p) ∧ (0 ≤ hi → p ≤ hi)

theorem truncQ_mono {x y : ℚ} (h : x ≤ y) : truncQ x ≤ truncQ y := by
  obtain ⟨hx, hx1, hx2⟩ := truncQ_spec x
  obtain ⟨hy, hy1, hy2⟩ := truncQ_spec y
  rcases le_total 0 x with h0 | h0
  · have := (hx1 h0).2
    unfold truncQ
    rw [if_pos h0, if_pos (h0.trans h), Rat.le_floor_iff (x := x.floor) (a := y)]
    exact (floor_le' x).trans h
  · rcases le_total 0 y with h1 | h1
    · exact (hx2 h0).1.trans (hy1 h1).1
    · by_cases hy0 : y = 0
      · subst hy0; exact (hx2 h0).1.trans (hy1 (le_refl _)).1
      · have hyn : y < 0 := lt_of_le_of_ne h1 hy0
        have hxn : x < 0 := h.trans_lt hyn
        unfold truncQ
        rw [if_neg (not_le.mpr hxn), if_neg (not_le.mpr hyn)]
        have : (-y).floor ≤ (-x).floor := by
          rw [Rat.le_floor_iff (x := (-y).floor) (a := -x)]
          have := floor_le' (-y)
          linarith
        omega

/-- C35.  After any history of commands, resets and control cycles that ends
with a cycle in which the bounds are enforced and no stop position outside of
the bounds is set, the control position lies within the configured bounds (up to
the resolution), and this position is the one reported.  What is missing from the
property: stop positions outside of the bounds (`C35_stop_refuted`) and the exact
bound where truncation toward zero moves it outward (`C35_truncation_refuted`). -/
theorem C35_bounds_partial (hA : A.Law2) (c : TrajConfig) (r : TrajRun) (ops : List TrajOp)
    (i : TrajIn) (lo hi : ℚ) (hlo : c.positionMin = .fin lo) (hhi : c.positionMax = .fin hi)
    (rlo : A.Rep lo) (rhi : A.Rep hi) (slo : |lo| < 32768) (shi : |hi| < 32768) (hle : lo ≤ hi)
    (he : (trajRun A c r ops).d.ignoreBounds = false)
    (hstop : ∀ p, (trajRun A c r ops).d.stopRaw = some p → InBounds lo hi (turns (p + i.delta))) :
    let r' := trajRun A c r (ops ++ [.cycle i])
    ∃ cp, r'.s.cp = some cp ∧ InBounds lo hi (turns (cp + i.delta)) ∧
      r'.s.controlPosition = intToFloat A (cp + i.delta) := by
  intro r'
  have hr' : r' = trajStep A c (trajRun A c r ops) (.cycle i) := by
    simp [r', trajRun, List.foldl_append]
  obtain ⟨vc, cv, cp, s', d', h1, h2, h3⟩ :=
    updateCommand_finish (A := A) c i (trajRun A c r ops).s (trajRun A c r ops).d
  have hc : c.withBounds c.positionMin c.positionMax = c := rfl
  have h3 := h3 c.positionMin c.positionMax
  rw [he, hc] at h3
  have hlh : floatToInt A (.fin lo) ≤ floatToInt A (.fin hi) := by
    rw [floatToInt_eq hA rlo slo, floatToInt_eq hA rhi shi]
    have := truncQ_mono (x := lo * 65536) (y := hi * 65536) (by linarith)
    omega
  have hb := bounds_eq (A := A) c (by simp [hlo]) (by simp [hhi]) (by rw [hlo, hhi]; exact hlh)
    i.delta cp
  rw [hlo, hhi] at hb
  have tl := turns_floatToInt hA rlo slo
  have th := turns_floatToInt hA rhi shi
  have u1 : (bounds A c false i.delta cp).1 + i.delta ≤ floatToInt A (.fin hi) := by
    rw [hb]; split
    · dsimp only; omega
    · split <;> dsimp only <;> omega
  have u2 : floatToInt A (.fin lo) ≤ (bounds A c false i.delta cp).1 + i.delta := by
    rw [hb]; split
    · dsimp only; omega
    · split <;> dsimp only <;> omega
  have hin : InBounds lo hi (turns ((bounds A c false i.delta cp).1 + i.delta)) := by
    have m : ∀ {x y : ℤ}, x ≤ y → turns x ≤ turns y := by
      intro x y h
      unfold turns
      have : (x : ℚ) ≤ y := by exact_mod_cast h
      linarith
    have v1 := m u1
    have v2 := m u2
    rw [abs_lt] at tl th
    refine ⟨by linarith, by linarith, fun h => ?_, fun h => ?_⟩
    · have := tl.2.2 h; linarith
    · have := th.2.1 h; linarith
  rw [hr']
  unfold trajStep
  simp only
  rw [h3]
  unfold finish
  split
  · rename_i stop hst
    refine ⟨stop, rfl, ?_, rfl⟩
    have : d'.stopRaw = some stop := by
      unfold stopAt at hst
      split at hst
      · exact absurd hst (by simp)
      · rename_i p hp
        split at hst
        · injection hst with e; rw [hp, e]
        · exact absurd hst (by simp)
    exact hstop stop (h1 ▸ this)
  · exact ⟨_, rfl, hin, rfl⟩

/-- C35.  The effect of the bounds of one cycle, compared with the same cycle
without bounds: a control position inside is left alone, together with
everything else; a control position beyond a bound is replaced by this bound and
the velocity command and the control velocity become zero. -/
theorem C35_stops_at_bound (c : TrajConfig) (i : TrajIn) (s : TrajStatus) (d : TrajData)
    (lo hi : Fl) (hlo : lo ≠ .nan) (hhi : hi ≠ .nan)
    (hle : floatToInt A lo ≤ floatToInt A hi) (hs : d.stopRaw = none) (he : d.ignoreBounds = false) :
    ∃ p : ℤ, (updateCommand A (c.withBounds .nan .nan) i s d).2.1.cp = some p ∧
      (floatToInt A lo ≤ p + i.delta → p + i.delta ≤ floatToInt A hi →
        updateCommand A (c.withBounds lo hi) i s d = updateCommand A (c.withBounds .nan .nan) i s d) ∧
      (p + i.delta < floatToInt A lo →
        (updateCommand A (c.withBounds lo hi) i s d).1 = .fin 0 ∧
        (updateCommand A (c.withBounds lo hi) i s d).2.1.cv = some (.fin 0) ∧
        (updateCommand A (c.withBounds lo hi) i s d).2.1.cp = some (floatToInt A lo - i.delta)) ∧
      (floatToInt A hi < p + i.delta →
        (updateCommand A (c.withBounds lo hi) i s d).1 = .fin 0 ∧
        (updateCommand A (c.withBounds lo hi) i s d).2.1.cv = some (.fin 0) ∧
        (updateCommand A (c.withBounds lo hi) i s d).2.1.cp = some (floatToInt A hi - i.delta)) := by
  obtain ⟨vc, cv, cp, s', d', h1, h2, h3⟩ := updateCommand_finish (A := A) c i s d
  have hn : ∀ cp vc, stopAt A d'.stopRaw cp vc = none := by intro cp vc; rw [h1, hs]; rfl
  have hfree : bounds A (c.withBounds .nan .nan) false i.delta cp = (cp, false) := by
    simp [bounds, saturateMin, saturateMax, TrajConfig.withBounds, Fl.isNan]
  have hbd : bounds A (c.withBounds lo hi) false i.delta cp =
      if cp + i.delta < floatToInt A lo then (floatToInt A lo - i.delta, true)
      else if floatToInt A hi < cp + i.delta then (floatToInt A hi - i.delta, true)
      else (cp, false) := by
    exact bounds_eq (c.withBounds lo hi) hlo hhi hle i.delta cp
  refine ⟨cp, ?_, ?_, ?_, ?_⟩
  · rw [h3, he, hfree]; unfold finish; rw [hn]
  · intro g1 g2
    rw [h3, h3, he, hfree, hbd, if_neg (by omega), if_neg (by omega)]
  · intro g1
    rw [h3, he, hbd, if_pos g1]
    unfold finish; rw [hn]; exact ⟨rfl, rfl, rfl⟩
  · intro g1
    rw [h3, he, hbd, if_neg (by omega), if_pos g1]
    unfold finish; rw [hn]; exact ⟨rfl, rfl, rfl⟩

/-- C35.  A maximum alone is enforced, whatever the minimum is configured to. -/
theorem C35_upper (hA : A.Law2) (c : TrajConfig) (i : TrajIn) (s : TrajStatus) (d : TrajData)
    (hi : ℚ) (hhi : c.positionMax = .fin hi) (rhi : A.Rep hi) (shi : |hi| < 32768)
    (hs : d.stopRaw = none) (he : d.ignoreBounds = false) :
    ∃ cp, (updateCommand A c i s d).2.1.cp = some cp ∧ turns (cp + i.delta) < hi + 1 / 65536 ∧
      (0 ≤ hi → turns (cp + i.delta) ≤ hi) := by
  obtain ⟨vc, cv, cp, s', d', h1, h2, h3⟩ := updateCommand_finish (A := A) c i s d
  have h3 := h3 c.positionMin c.positionMax
  rw [show c.withBounds c.positionMin c.positionMax = c from rfl, he] at h3
  have hn : ∀ cp vc, stopAt A d'.stopRaw cp vc = none := by intro cp vc; rw [h1, hs]; rfl
  refine ⟨(bounds A c false i.delta cp).1, ?_, ?_⟩
  · rw [h3]; unfold finish; rw [hn]
  · have hb : (bounds A c false i.delta cp).1 + i.delta ≤ floatToInt A (.fin hi) := by
      unfold bounds
      rw [if_neg (by simp), hhi]
      generalize saturateMin A c.positionMin i.delta (cp, false) = x
      rw [show x = (x.1, x.2) from rfl, saturateMax_eq (by simp)]
      split <;> dsimp only <;> omega
    have th := turns_floatToInt hA rhi shi
    have m : turns ((bounds A c false i.delta cp).1 + i.delta) ≤ turns (floatToInt A (.fin hi)) := by
      unfold turns
      have : (((bounds A c false i.delta cp).1 + i.delta : ℤ) : ℚ) ≤ floatToInt A (.fin hi) := by
        exact_mod_cast hb
      linarith
    rw [abs_lt] at th
    exact ⟨by linarith, fun h => by have := th.2.1 h; linarith⟩

/-- C35.  A minimum alone is enforced. -/
theorem C35_lower (hA : A.Law2) (c : TrajConfig) (i : TrajIn) (s : TrajStatus) (d : TrajData)
    (lo : ℚ) (hlo : c.positionMin = .fin lo) (hhi : c.positionMax = .nan) (rlo : A.Rep lo)
    (slo : |lo| < 32768) (hs : d.stopRaw = none) (he : d.ignoreBounds = false) :
    ∃ cp, (updateCommand A c i s d).2.1.cp = some cp ∧ lo - 1 / 65536 < turns (cp + i.delta) ∧
      (lo ≤ 0 → lo ≤ turns (cp + i.delta)) := by
  obtain ⟨vc, cv, cp, s', d', h1, h2, h3⟩ := updateCommand_finish (A := A) c i s d
  have h3 := h3 c.positionMin c.positionMax
  rw [show c.withBounds c.positionMin c.positionMax = c from rfl, he] at h3
  have hn : ∀ cp vc, stopAt A d'.stopRaw cp vc = none := by intro cp vc; rw [h1, hs]; rfl
  refine ⟨(bounds A c false i.delta cp).1, ?_, ?_⟩
  · rw [h3]; unfold finish; rw [hn]
  · have hb : floatToInt A (.fin lo) ≤ (bounds A c false i.delta cp).1 + i.delta := by
      unfold bounds
      rw [if_neg (by simp), hhi, hlo, saturateMin_eq (by simp)]
      unfold saturateMax
      rw [if_pos (show Fl.nan.isNan = true from rfl)]
      split <;> dsimp only <;> omega
    have tl := turns_floatToInt hA rlo slo
    have m : turns (floatToInt A (.fin lo)) ≤ turns ((bounds A c false i.delta cp).1 + i.delta) := by
      unfold turns
      have : (floatToInt A (.fin lo) : ℚ) ≤ ((bounds A c false i.delta cp).1 + i.delta : ℤ) := by
        exact_mod_cast hb
      linarith
    rw [abs_lt] at tl
    exact ⟨by linarith, fun h => by have := tl.2.2 h; linarith⟩

/-! ## No empty optional is dereferenced -/

/-- The control velocity is set whenever the control position is. -/
def Engaged (s : TrajStatus) : Prop := s.cp.isSome → s.cv.isSome

/-- When the control velocity and position are dereferenced (lines 148, 183,
266 and following) they are set. -/
theorem update_engaged (c : TrajConfig) (i : TrajIn) (v : Fl) (s : TrajStatus) (d : TrajData)
    (h : Engaged s) : (begin i c v s d).1.cp.isSome ∧ (begin i c v s d).1.cv.isSome := by
  unfold Engaged at h
  unfold begin
  dsimp only
  split
  · exact ⟨rfl, rfl⟩
  · split <;> dsimp only <;> split <;> rename_i g
    · exact ⟨rfl, rfl⟩
    · cases hc : s.cp <;> simp_all
    · exact ⟨rfl, rfl⟩
    · cases hc : s.cp <;> simp_all

theorem engaged_run (c : TrajConfig) (r : TrajRun) (ops : List TrajOp) (h : Engaged r.s) :
    Engaged (trajRun A c r ops).s := by
  unfold trajRun
  induction ops generalizing r with
  | nil => exact h
  | cons op ops ih =>
    rw [List.foldl_cons]
    apply ih
    cases op with
    | command d => exact h
    | cycle i =>
      intro _
      unfold trajStep updateCommand finish
      dsimp only
      split <;> rfl
    | recapture => intro hc; cases hc

/-! ## Witnesses -/

namespace TrajWitness

/-- A cycle at 32768 Hz with the motor at rest at `q` turns. -/
def still (velocity : Fl) : TrajIn where
  velocity
  posRel := 0
  delta := 0
  rateHz := .fin 32768
  velocityFilt := .fin 0
  measured := .fin 0
  motorMax := .fin 500
  z1 := false
  z2 := false

def cfg (lo hi : Fl) : TrajConfig where
  zeroCapture := .fin (1 / 16)
  maxPositionSlip := .nan
  maxVelocitySlip := .nan
  positionMin := lo
  positionMax := hi

def startStatus : TrajStatus where
  cp := none
  cv := none
  done := false
  controlPosition := .nan

/-- `d pos 0.5 -1` with a stop position of ten turns. -/
def stopCommand : TrajData where
  position := .fin (1 / 2)
  velocity := .fin (-1)
  posRaw := some (floatToInt .single (.fin (1 / 2)))
  stopRaw := some (floatToInt .single (.fin 10))
  velLimit := .nan
  accelLimit := .nan
  ignoreBounds := false

/-- A target of 0.00001 turns. -/
def smallCommand : TrajData where
  position := .fin 0
  velocity := .fin 0
  posRaw := some 0
  stopRaw := none
  velLimit := .nan
  accelLimit := .nan
  ignoreBounds := false

end TrajWitness

open TrajWitness

/-- C35 fails for stop positions outside of the bounds: the stop position is
applied after the bounds, so a command moving away from a stop position of ten
turns puts the control position at ten turns although the maximum is one turn. -/
theorem C35_stop_refuted :
    (updateCommand .single (cfg (.fin (-1)) (.fin 1)) (still (.fin (-1))) startStatus
      stopCommand).2.1.cp = some (10 * 281474976710656) ∧
    (updateCommand .single (cfg (.fin (-1)) (.fin 1)) (still (.fin (-1))) startStatus
      stopCommand).2.1.controlPosition = .fin 10 := by
  decide +kernel

/-- C35 fails by less than 2^-16 turn for a positive minimum: it is truncated
toward zero, so the control position may be below it. -/
theorem C35_truncation_refuted :
    let u := updateCommand .single (cfg (.fin (1 / 131072)) (.fin 1)) (still (.fin 0)) startStatus
      smallCommand
    u.2.1.cp = some 0 ∧ u.2.1.controlPosition = .fin 0 ∧ (0 : ℚ) < 1 / 131072 := by
  decide +kernel

/-- The hypotheses of `C35_bounds_partial` are met by a command to two turns with
bounds of ±1, which ends at one turn. -/
example :
    let r := trajRun .single (cfg (.fin (-1)) (.fin 1)) ⟨startStatus, smallCommand, .fin 0⟩
      [.command { smallCommand with posRaw := some (2 * 281474976710656) }, .cycle (still (.fin 3))]
    r.s.cp = some 281474976710656 ∧ r.vc = .fin 0 ∧ r.s.controlPosition = .fin 1 ∧
      r.d.ignoreBounds = false ∧ r.d.stopRaw = none := by
  decide +kernel

example : Ar.single.Rep 1 ∧ Ar.single.Rep (-1) := by
  constructor
  · simpa using Ar.single_law2.rep_int (n := 1) (by norm_num)
  · simpa using Ar.single_law2.rep_int (n := -1) (by norm_num)

/-- `Engaged` holds after power on. -/
example : Engaged startStatus := by intro h; cases h

end Verif.Fw
