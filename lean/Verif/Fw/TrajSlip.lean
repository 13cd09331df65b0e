import Verif.Fw.TrajDone
import Verif.Fw.PositionNearest

/-!
# Property C71: slip limits

`servo.max_position_slip` limits the difference between the control position and the
measured position, `servo.max_velocity_slip` that between the control velocity and
the measured velocity.
-/

namespace Verif.Fw

open Verif.Float

variable {A : Ar}

/-- The configuration without slip limits. -/
def TrajConfig.noSlip (c : TrajConfig) : TrajConfig :=
  { c with maxPositionSlip := .nan, maxVelocitySlip := .nan }

/-- The configuration without position bounds. -/
def TrajConfig.noBounds (c : TrajConfig) : TrajConfig := c.withBounds .nan .nan

/-- The nearest number to `x` that is within `s` of `m`. -/
def held (m s x : ℤ) : ℤ := max (m - s) (min (m + s) x)

theorem positionSlip_held {q : ℚ} (current cp : ℤ) (h : 0 ≤ floatToInt A (.fin q)) :
    positionSlip A (.fin q) current cp = held current (floatToInt A (.fin q)) cp := by
  unfold positionSlip held
  rw [if_pos (show (Fl.fin q).isFinite = true from rfl)]
  dsimp only
  split
  · omega
  · split <;> omega

theorem prepare_slip (c : TrajConfig) (i : TrajIn) (s : TrajStatus) (d : TrajData) :
    (prepare A c i s d).velocityCommand = (prepare A c.noSlip i s d).velocityCommand ∧
    (prepare A c i s d).cp =
      positionSlip A c.maxPositionSlip i.posRel (prepare A c.noSlip i s d).cp ∧
    (prepare A c i s d).cv =
      velocitySlip A c.maxVelocitySlip i.measured (prepare A c.noSlip i s d).cv := ⟨rfl, rfl, rfl⟩

theorem held_near (m s x : ℤ) (h : 0 ≤ s) : |m - held m s x| ≤ s ∧ (|m - x| ≤ s → held m s x = x) := by
  unfold held
  constructor
  · rw [abs_le]; omega
  · intro g
    rw [abs_le] at g
    omega

/-- The position after the bounds, with the bounds off. -/
theorem cp_noBounds (c : TrajConfig) (i : TrajIn) (s : TrajStatus) (d : TrajData) (hs : d.stopRaw = none) :
    (updateCommand A c.noBounds i s d).2.1.cp = some (prepare A c i s d).cp ∧
    (updateCommand A c.noBounds i s d).2.1.cv = some (prepare A c i s d).cv ∧
    (updateCommand A c.noBounds i s d).1 = (prepare A c i s d).velocityCommand := by
  have hd := prepare_data (A := A) c i s d
  have hp : prepare A c.noBounds i s d = prepare A c i s d := rfl
  have hb : ∀ cp, bounds A c.noBounds (prepare A c i s d).d.ignoreBounds i.delta cp = (cp, false) := by
    intro cp
    unfold bounds
    split
    · rfl
    · simp [TrajConfig.noBounds, TrajConfig.withBounds, saturateMin, saturateMax, Fl.isNan]
  have hst : ∀ cp vc, stopAt A (prepare A c i s d).d.stopRaw cp vc = none := by
    intro cp vc; rw [hd.1, hs]; rfl
  unfold updateCommand
  dsimp only
  rw [hp, hb]
  unfold finish
  rw [hst]
  exact ⟨rfl, rfl, rfl⟩

/-- C71, position, in any arithmetic, without position bounds and stop position: in
whatever state, a cycle leaves the control position within the slip of the measured
position, and changes it only when needed: it is the position without slip limit, or
else the nearest position within the slip (rounded down to the resolution of 2^-16
turns). -/
theorem C71_position (hA : A.Law2) (c : TrajConfig) (i : TrajIn) (s : TrajStatus) (d : TrajData)
    {q : ℚ} (hq : c.maxPositionSlip = .fin q) (rq : A.Rep q) (h0 : 0 ≤ q) (h1 : q < 32768)
    (hs : d.stopRaw = none) :
    ∃ p p0 S : ℤ,
      (updateCommand A c.noBounds i s d).2.1.cp = some p ∧
      (updateCommand A c.noSlip.noBounds i s d).2.1.cp = some p0 ∧
      q - 1 / 65536 < turns S ∧ turns S ≤ q ∧
      |turns (i.posRel - p)| ≤ q ∧
      (|i.posRel - p0| ≤ S → p = p0) ∧
      (S < |i.posRel - p0| → |i.posRel - p| = S ∧ |p0 - p| = |i.posRel - p0| - S) := by
  have hS := turns_floatToInt hA rq (by rw [abs_of_nonneg h0]; exact h1)
  have hS0 : 0 ≤ floatToInt A (.fin q) := by
    rw [floatToInt_eq hA rq (by rw [abs_of_nonneg h0]; exact h1)]
    have := ((truncQ_spec (q * 65536)).2.1 (by positivity)).1
    omega
  have hle := hS.2.1 h0
  rw [abs_lt] at hS
  refine ⟨(prepare A c i s d).cp, (prepare A c.noSlip i s d).cp, floatToInt A (.fin q),
    (cp_noBounds c i s d hs).1, (cp_noBounds c.noSlip i s d hs).1, by linarith [hS.1.1], hle, ?_, ?_, ?_⟩
  all_goals rw [(prepare_slip c i s d).2.1, hq, positionSlip_held _ _ hS0]
  · have hn := (held_near i.posRel (floatToInt A (.fin q)) (prepare A c.noSlip i s d).cp hS0).1
    have : |turns (i.posRel - held i.posRel (floatToInt A (.fin q)) (prepare A c.noSlip i s d).cp)| ≤
        turns (floatToInt A (.fin q)) := by
      unfold turns
      rw [abs_div, abs_of_pos (show (0 : ℚ) < 281474976710656 by norm_num)]
      apply div_le_div_of_nonneg_right _ (by norm_num)
      exact_mod_cast hn
    linarith
  · exact (held_near _ _ _ hS0).2
  · intro g
    unfold held
    rw [lt_abs] at g
    rcases g with g | g
    · rw [abs_of_nonneg (by omega), abs_of_nonpos (by omega), abs_of_nonneg (by omega)]
      omega
    · rw [abs_of_nonpos (by omega), abs_of_nonneg (by omega), abs_of_nonpos (by omega)]
      omega

/-- C71, position, with the position bounds: when the measured position is within the
bounds, the control position is too and within the slip of it. -/
theorem C71_with_bounds (hA : A.Law2) (c : TrajConfig) (i : TrajIn) (s : TrajStatus) (d : TrajData)
    {q lo hi : ℚ} (hq : c.maxPositionSlip = .fin q) (rq : A.Rep q) (h0 : 0 ≤ q) (h1 : q < 32768)
    (hs : d.stopRaw = none) (hlo : c.positionMin = .fin lo) (hhi : c.positionMax = .fin hi)
    (hm : floatToInt A (.fin lo) ≤ i.posRel + i.delta ∧ i.posRel + i.delta ≤ floatToInt A (.fin hi)) :
    ∃ p : ℤ, (updateCommand A c i s d).2.1.cp = some p ∧ |turns (i.posRel - p)| ≤ q := by
  have hS := turns_floatToInt hA rq (by rw [abs_of_nonneg h0]; exact h1)
  have hS0 : 0 ≤ floatToInt A (.fin q) := by
    rw [floatToInt_eq hA rq (by rw [abs_of_nonneg h0]; exact h1)]
    have := ((truncQ_spec (q * 65536)).2.1 (by positivity)).1
    omega
  have hle := hS.2.1 h0
  have hd := prepare_data (A := A) c i s d
  have hst : ∀ cp vc, stopAt A (prepare A c i s d).d.stopRaw cp vc = none := by
    intro cp vc; rw [hd.1, hs]; rfl
  have hn := (held_near i.posRel (floatToInt A (.fin q)) (prepare A c.noSlip i s d).cp hS0).1
  have hcp : (prepare A c i s d).cp =
      held i.posRel (floatToInt A (.fin q)) (prepare A c.noSlip i s d).cp := by
    rw [(prepare_slip c i s d).2.1, hq, positionSlip_held _ _ hS0]
  rw [← hcp] at hn
  refine ⟨(bounds A c (prepare A c i s d).d.ignoreBounds i.delta (prepare A c i s d).cp).1, ?_, ?_⟩
  · unfold updateCommand
    dsimp only
    unfold finish
    rw [hst]
  · have key : |i.posRel - (bounds A c (prepare A c i s d).d.ignoreBounds i.delta
        (prepare A c i s d).cp).1| ≤ floatToInt A (.fin q) := by
      generalize (prepare A c i s d).cp = x at hn
      generalize (prepare A c i s d).d.ignoreBounds = b
      unfold bounds
      cases b
      · rw [if_neg Bool.false_ne_true]
        rw [abs_le] at hn ⊢
        unfold saturateMax saturateMin
        rw [hlo, hhi]
        rw [show (Fl.fin hi).isNan = false from rfl, show (Fl.fin lo).isNan = false from rfl]
        simp only [if_neg Bool.false_ne_true]
        repeat' split
        all_goals first
          | (dsimp only at *; omega)
      · rw [if_pos rfl]; exact hn
    have : |turns (i.posRel - (bounds A c (prepare A c i s d).d.ignoreBounds i.delta
        (prepare A c i s d).cp).1)| ≤ turns (floatToInt A (.fin q)) := by
      unfold turns
      rw [abs_div, abs_of_pos (show (0 : ℚ) < 281474976710656 by norm_num)]
      apply div_le_div_of_nonneg_right _ (by norm_num)
      exact_mod_cast key
    linarith

/-- C71, velocity, up to rounding (`κ = 0` in exact arithmetic): a cycle leaves the
control velocity within the slip of the measured velocity and changes it only when
needed.  The velocity that the control law of this same cycle gets is not limited. -/
theorem C71_velocity {κ : ℚ} (hA : Fine A κ) (c : TrajConfig) (i : TrajIn) (s : TrajStatus) (d : TrajData)
    {σ m v B : ℚ} (hσ : c.maxVelocitySlip = .fin σ) (h0 : 0 ≤ σ) (hm : i.measured = .fin m)
    (hs : d.stopRaw = none)
    (hv : (updateCommand A c.noSlip.noBounds i s d).2.1.cv = some (.fin v))
    (hB : 1 / 4096 ≤ B) (hB' : B ≤ 1073741824) (b1 : σ ≤ B) (b2 : |m| ≤ B) (b3 : |v| ≤ B) :
    ∃ v', (updateCommand A c.noBounds i s d).2.1.cv = some (.fin v') ∧
      |m - v'| ≤ σ + 2 * (B * κ) ∧
      (|m - v| + 2 * (B * κ) ≤ σ → v' = v) ∧
      (σ + 2 * (B * κ) < |m - v| → |v' - (if m < v then m + σ else m - σ)| ≤ 2 * (B * κ)) ∧
      (updateCommand A c.noBounds i s d).1 = (updateCommand A c.noSlip.noBounds i s d).1 := by
  have hv' : (prepare A c.noSlip i s d).cv = .fin v := by
    rw [(cp_noBounds c.noSlip i s d hs).2.1] at hv
    injection hv
  have hk : 0 ≤ B * κ := mul_nonneg (by linarith) hA.nonneg'
  rw [abs_le] at b2 b3
  obtain ⟨e, ee, he⟩ := op hA (x := m - v) (2 * B) (by rw [abs_le]; constructor <;> linarith)
    (by linarith) (by linarith)
  obtain ⟨u, eu, hu⟩ := op hA (x := m + σ) (2 * B) (by rw [abs_le]; constructor <;> linarith)
    (by linarith) (by linarith)
  obtain ⟨w, ew, hw⟩ := op hA (x := m - σ) (2 * B) (by rw [abs_le]; constructor <;> linarith)
    (by linarith) (by linarith)
  have hcmd : (updateCommand A c.noBounds i s d).1 = (updateCommand A c.noSlip.noBounds i s d).1 := by
    rw [(cp_noBounds c i s d hs).2.2, (cp_noBounds c.noSlip i s d hs).2.2]
    exact (prepare_slip c i s d).1
  rw [(cp_noBounds c i s d hs).2.1, (prepare_slip c i s d).2.2, hv', hσ, hm]
  have hform : velocitySlip A (.fin σ) (.fin m) (.fin v) =
      .fin (if σ < e then w else if e < -σ then u else v) := by
    unfold velocitySlip
    rw [if_pos (show (Fl.fin σ).isFinite = true from rfl)]
    dsimp only
    rw [sub_fin, ee, add_fin, eu, sub_fin, ew, show (Fl.fin σ).neg = .fin (-σ) from rfl, Fl.blt_fin, Fl.blt_fin]
    by_cases h1 : σ < e
    · rw [if_pos h1, decide_eq_true h1, if_pos rfl]
    · rw [if_neg h1, decide_eq_false h1, if_neg Bool.false_ne_true]
      by_cases h2 : e < -σ
      · rw [if_pos h2, decide_eq_true h2, if_pos rfl]
      · rw [if_neg h2, decide_eq_false h2, if_neg Bool.false_ne_true]
  rw [abs_le] at he hu hw
  refine ⟨_, congrArg some hform, ?_, ?_, ?_, hcmd⟩
  · rw [abs_le]
    split
    · constructor <;> linarith
    · rename_i h1
      split
      · constructor <;> linarith
      · rename_i h2
        constructor <;> linarith
  · intro g
    have g1 := le_abs_self (m - v)
    have g2 := neg_le_abs (m - v)
    rw [if_neg (by linarith), if_neg (by linarith)]
  · intro g
    rw [lt_abs] at g
    rcases g with g | g
    · rw [if_pos (by linarith), if_neg (by linarith), abs_le]
      constructor <;> linarith
    · rw [if_neg (by linarith), if_pos (by linarith), if_pos (by linarith), abs_le]
      constructor <;> linarith

/-! ## Examples and disagreements -/

namespace SlipWitness

open TrajWitness

/-- Velocity mode at 1 turn per second with a slip of 1/8 turn: the motor does not
move. -/
def cfg : TrajConfig := ⟨.fin 0, .fin (1 / 8), .nan, .fin (-1), .fin 1⟩

def drive : TrajData where
  position := .nan
  velocity := .fin 1
  posRaw := none
  stopRaw := none
  velLimit := .nan
  accelLimit := .nan
  ignoreBounds := false

def cycle (posRel : ℤ) : TrajIn where
  velocity := .fin 1
  posRel := posRel
  delta := 0
  rateHz := .fin 1024
  velocityFilt := .fin 0
  measured := .fin 0
  motorMax := .fin 50
  z1 := false
  z2 := false

/-- The slip limit acts: after 200 cycles the control position is 1/8 turn ahead, and
stays there. -/
example : (trajRun .single cfg ⟨⟨some 0, some (.fin 0), false, .fin 0⟩, drive, .fin 0⟩
    (List.replicate 200 (.cycle (cycle 0)))).s.cp = some (2 ^ 45) := by decide +kernel

/-- The hypotheses of `C71_velocity` are met. -/
example : (updateCommand .single { cfg with maxVelocitySlip := .fin (1 / 4) }.noSlip.noBounds (cycle 0)
      ⟨some 0, some (.fin 0), false, .fin 0⟩ drive).2.1.cv = some (.fin 1) ∧
    (updateCommand .single { cfg with maxVelocitySlip := .fin (1 / 4) }.noBounds (cycle 0)
      ⟨some 0, some (.fin 0), false, .fin 0⟩ drive).2.1.cv = some (.fin (1 / 4)) := by decide +kernel

end SlipWitness

/-- The position bounds come after the slip limit: with the motor beyond the upper
bound the control position is further than the slip from it. -/
theorem C71_bounds_first :
    (updateCommand .single SlipWitness.cfg (SlipWitness.cycle (2 ^ 49))
      ⟨some 0, some (.fin 0), false, .fin 0⟩ SlipWitness.drive).2.1.cp = some (2 ^ 48) := by
  decide +kernel

/-- So does the stop position: a stop behind the motor is taken at once. -/
theorem C71_stop_first :
    (updateCommand .single SlipWitness.cfg (SlipWitness.cycle (2 ^ 47))
      ⟨some 0, some (.fin 0), false, .fin 0⟩ { SlipWitness.drive with stopRaw := some 0 }).2.1.cp = some 0 := by
  decide +kernel

/-- A slip that is less than the resolution of 2^-16 turns is no slip. -/
theorem C71_resolution :
    (updateCommand .single { SlipWitness.cfg with maxPositionSlip := .fin (1 / 131072) } (SlipWitness.cycle 0)
      ⟨some 0, some (.fin 0), false, .fin 0⟩ SlipWitness.drive).2.1.cp = some 0 := by
  decide +kernel

end Verif.Fw
