import Verif.Fw.AuxPort
import Verif.Fw.TrajCompletes
import Verif.Float.Rel
import Mathlib.Tactic.Linarith
import Mathlib.Tactic.Ring
import Mathlib.Tactic.Positivity
import Mathlib.Tactic.FieldSimp
import Mathlib.Data.Nat.Count

/-!
# PWM outputs of the auxiliary ports (C94)

`Stm32PwmTimer`, `Stm32PwmTimerSet`, `Stm32Pwm` (fw/aux_mbed.h:361-498), their
use in fw/aux_port.h, and the timers of the processor.

The hardware, as its reference manual (RM0440, general purpose timers)
describes it: a prescaler counts input clocks and advances the counter; the
counter starts again at 0 after it was equal to `ARR`, or when it overflows;
then `PSC` takes effect.  `ARR` and the compare registers act at once, because
neither `ARPE` nor `OCxPE` is set.  Setting `CR1` to 0 stops the counter where
it is; the write of 0 to `EGR` does nothing.

Simplified: the other modes of a channel and the slave mode (the constructor
clears them) are not modelled; all timers get every clock.
-/

namespace Verif.Fw.AuxPwm

open Verif.Float

/-! ## A timer -/

structure Tim where
  /-- bits of the counter: 32 for `TIM2`, 16 for `TIM3` and `TIM4` -/
  width : ℕ := 16
  /-- `CR1.CEN` -/
  on : Bool := false
  psc : ℕ := 0
  /-- the prescaler that is in force -/
  pscNow : ℕ := 0
  /-- counter of the prescaler -/
  sub : ℕ := 0
  cnt : ℕ := 0
  arr : ℕ := 65535
  /-- `CCMRx` selects PWM mode 1 -/
  pwm : Fin 4 → Bool := fun _ => false
  /-- `CCER` -/
  en : Fin 4 → Bool := fun _ => false
  ccr : Fin 4 → ℕ := fun _ => 0

/-- One clock. -/
def tick (t : Tim) : Tim :=
  if t.on = false then t
  else if t.sub < t.pscNow then { t with sub := t.sub + 1 }
  else if t.cnt = t.arr ∨ t.cnt + 1 = 2 ^ t.width then
    { t with sub := 0, cnt := 0, pscNow := t.psc }
  else { t with sub := 0, cnt := t.cnt + 1 }

/-- The level of an output. -/
def level (t : Tim) (k : Fin 4) : Bool := t.en k && t.pwm k && decide (t.cnt < t.ccr k)

/-- aux_mbed.h:365-387, the constructor of `Stm32PwmTimer`; `clock` is
`HAL_RCC_GetPCLK1Freq() * 2`.  `none`: division by zero.  A register keeps its
lower bits. -/
def setup (clock : ℕ) (period : ℤ) (t : Tim) : Option Tim :=
  let ticks := ((clock : ℤ) * period).tdiv 1000000
  let ratio := ticks.tdiv 65536 + 1
  if ratio = 0 then none
  else some { t with
    on := false
    psc := ((ratio - 1) % 65536).toNat
    arr := (ticks.tdiv ratio % 2 ^ t.width).toNat
    pwm := fun _ => false
    en := fun _ => false }

/-- aux_mbed.h:449-483, the constructor of `Stm32Pwm`. -/
def attach (k : Fin 4) (t : Tim) : Tim :=
  { t with pwm := Function.update t.pwm k true, en := Function.update t.en k true }

/-- aux_mbed.h:485-494, `Stm32Pwm::write`: what is stored in the register. -/
def compare (A : Ar) (counts : ℕ) (value : Fl) : ℕ :=
  (max 0 (min 65535 (toI32 (A.mul value (A.lit ((counts + 1) % 4294967296 : ℕ)))))).toNat

/-- aux_port.h:396-399, `WritePwmOut`, with `std::min` and `std::max`. -/
def clampPin (pin : ℤ) : ℕ := (max 0 (min 4 pin)).toNat
def clampValue (v : Fl) : Fl := Fl.max (.fin 0) (Fl.min (.fin 1) v)

/-! ## The outputs of a port -/

/-- Where an output is: `pwm_[i]`, with its copy of `counts_per_cycle_`. -/
structure Out where
  timer : ℕ
  chan : Fin 4
  counts : ℕ

structure Port where
  tims : ℕ → Tim
  /-- `pwm_timer_set_.timers_` -/
  used : List ℕ := []
  outs : Fin 5 → Option Out := fun _ => none
  /-- the timer and channel that the pin is connected to -/
  wire : Fin 5 → Option (ℕ × Fin 4) := fun _ => none
  /-- `status_.pwm` -/
  value : Fin 5 → Fl := fun _ => .fin 0

/-- `pinmap_function` and `STM_PIN_CHANNEL` of mbed: the channel of a pin at a
timer. -/
abbrev ChannelMap := ℕ → ℕ → Fin 4

/-- aux_mbed.h:408-416 and aux_port.h:784, 809-810: everything is reset, but the
pins stay connected. -/
def clear (p : Port) : Port where
  tims := fun t => if t ∈ p.used then { p.tims t with on := false } else p.tims t
  wire := p.wire

/-- aux_port.h:1171-1196 for one pin, when `HandleConfigUpdate` comes to it in
state `s`.  `none`: the controller stops.  Another function takes the pin from
the timer; a pin without function is left as it is. -/
def addPin (hw : Aux.Hw) (ch : ChannelMap) (clock : ℕ) (period : ℤ) (s : Aux.St) (i : Fin 5)
    (p : Port) : Option Port :=
  if (s.cfg.pins i).mode = .pwmOut then
    match Aux.pwmTimer hw s i, Aux.firstRow hw i with
    | some t, some r =>
      let k := ch r.mbed t
      (if t ∈ p.used then some (p.tims t) else setup clock period (p.tims t)).map fun y =>
      { p with
        used := if t ∈ p.used then p.used else p.used ++ [t]
        tims := Function.update p.tims t (attach k y)
        outs := Function.update p.outs i (some ⟨t, k, y.arr⟩)
        wire := Function.update p.wire i (some (t, k)) }
    | _, _ => some p
  else if (s.cfg.pins i).mode = .nc then some p
  else some { p with wire := Function.update p.wire i none }

def addPins (hw : Aux.Hw) (ch : ChannelMap) (clock : ℕ) (period : ℤ) (s : Aux.St) :
    List (Fin 5) → Port → Option Port
  | [], p => some p
  | i :: is, p => (addPin hw ch clock period s i p).bind (addPins hw ch clock period s is)

/-- aux_mbed.h:433-439. -/
def begin_ (p : Port) : Port :=
  { p with tims := fun t => if t ∈ p.used then { p.tims t with on := true } else p.tims t }

/-- What `HandleConfigUpdate` does about PWM when it accepts a configuration
and ends in state `s`. -/
def configure (hw : Aux.Hw) (ch : ChannelMap) (clock : ℕ) (period : ℤ) (s : Aux.St) (p : Port) :
    Option Port :=
  (addPins hw ch clock period s (List.finRange 5) (clear p)).map begin_

/-- aux_port.h:179-181 for one pin. -/
def writePin (A : Ar) (p : Port) (i : Fin 5) : Port :=
  match p.outs i with
  | none => p
  | some o =>
    { p with tims := Function.update p.tims o.timer { p.tims o.timer with
        ccr := Function.update (p.tims o.timer).ccr o.chan (compare A o.counts (p.value i)) } }

/-- aux_port.h:174-185, one control cycle. -/
def cycle (A : Ar) (p : Port) : Port := (List.finRange 5).foldl (writePin A) p

inductive Ev
  | clock
  | cycle
  | write (pin : ℤ) (v : Fl)

def step (A : Ar) (p : Port) : Ev → Port
  | .clock => { p with tims := fun t => tick (p.tims t) }
  | .cycle => cycle A p
  | .write pin v =>
    { p with value := fun i => if i.val = clampPin pin then clampValue v else p.value i }

def run (A : Ar) (p : Port) (l : List Ev) : Port := l.foldl (step A) p

/-- The level at a pin. -/
def pinLevel (p : Port) (i : Fin 5) : Bool :=
  match p.wire i with
  | none => false
  | some w => level (p.tims w.1) w.2

/-! ## Proof: the timer -/

/-- What the widths of the registers imply. -/
structure Valid (t : Tim) : Prop where
  width : 16 ≤ t.width
  cnt : t.cnt < 2 ^ t.width
  arr : t.arr < 2 ^ t.width
  sub : t.sub ≤ t.pscNow
  now : t.pscNow < 65536
  psc : t.psc < 65536

theorem two16 {w : ℕ} (h : 16 ≤ w) : 65536 ≤ 2 ^ w := by
  calc 65536 = 2 ^ 16 := by norm_num
    _ ≤ 2 ^ w := Nat.pow_le_pow_right (by norm_num) h

theorem tick_valid {t : Tim} (h : Valid t) : Valid (tick t) := by
  obtain ⟨h0, h1, h2, h3, h4, h5⟩ := h
  unfold tick
  split
  · exact ⟨h0, h1, h2, h3, h4, h5⟩
  split
  · exact ⟨h0, h1, h2, by simp only; omega, h4, h5⟩
  split
  · exact ⟨h0, by simp only; positivity, h2, by simp, h5, h5⟩
  · exact ⟨h0, by simp only; omega, h2, by simp, h4, h5⟩

/-- The prescaler is in force and the counter below its end. -/
structure Settled (t : Tim) : Prop where
  on : t.on = true
  now : t.pscNow = t.psc
  cnt : t.cnt ≤ t.arr

/-- Clocks since the counter began. -/
def pos (t : Tim) : ℕ := t.cnt * (t.psc + 1) + t.sub

/-- Clocks from one start of the counter to the next. -/
def full (t : Tim) : ℕ := (t.arr + 1) * (t.psc + 1)

theorem tick_fixed (t : Tim) : (tick t).psc = t.psc ∧ (tick t).arr = t.arr ∧
    (tick t).ccr = t.ccr ∧ (tick t).en = t.en ∧ (tick t).pwm = t.pwm ∧ (tick t).on = t.on ∧
    (tick t).width = t.width := by
  unfold tick
  split_ifs <;> simp

theorem tick_settled {t : Tim} (v : Valid t) (h : Settled t) :
    Settled (tick t) ∧ pos (tick t) = (pos t + 1) % full t := by
  obtain ⟨h1, h2, h3⟩ := h
  have v1 := v.sub
  have e0 : t.cnt * (t.psc + 1) ≤ t.arr * (t.psc + 1) := Nat.mul_le_mul_right _ h3
  have e1 : full t = t.arr * (t.psc + 1) + (t.psc + 1) := by unfold full; ring
  unfold tick
  rw [if_neg (by simp [h1])]
  split
  · rename_i c
    refine ⟨⟨h1, h2, h3⟩, ?_⟩
    rw [Nat.mod_eq_of_lt]
    · simp [pos]; omega
    · rw [e1]; unfold pos; omega
  · rename_i c
    have hs : t.sub = t.psc := by omega
    split
    · rename_i d
      have hc : t.cnt = t.arr := by
        rcases d with d | d
        · exact d
        · have := v.arr; omega
      refine ⟨⟨h1, rfl, by simp⟩, ?_⟩
      have : pos t + 1 = full t := by rw [e1]; unfold pos; rw [hc, hs]; ring
      rw [this, Nat.mod_self]; simp [pos]
    · rename_i d
      rw [not_or] at d
      have d1 : t.cnt + 1 ≤ t.arr := by omega
      refine ⟨⟨h1, h2, d1⟩, ?_⟩
      have e2 : (t.cnt + 1) * (t.psc + 1) ≤ t.arr * (t.psc + 1) := Nat.mul_le_mul_right _ d1
      have e3 : pos t + 1 = (t.cnt + 1) * (t.psc + 1) := by unfold pos; rw [hs]; ring
      rw [e3, Nat.mod_eq_of_lt (by rw [e1]; omega)]
      simp [pos]

theorem full_pos (t : Tim) : 0 < full t := by unfold full; positivity

/-- Clocks. -/
def ticks (t : Tim) (n : ℕ) : Tim := tick^[n] t

theorem ticks_succ (t : Tim) (n : ℕ) : ticks t (n + 1) = tick (ticks t n) := by
  unfold ticks; rw [Function.iterate_succ_apply']

theorem ticks_add (t : Tim) (m n : ℕ) : ticks t (m + n) = ticks (ticks t m) n := by
  unfold ticks; rw [Nat.add_comm, Function.iterate_add_apply]

theorem ticks_fixed (t : Tim) (n : ℕ) : (ticks t n).psc = t.psc ∧ (ticks t n).arr = t.arr ∧
    (ticks t n).ccr = t.ccr ∧ (ticks t n).en = t.en ∧ (ticks t n).pwm = t.pwm ∧
    (ticks t n).on = t.on ∧ (ticks t n).width = t.width := by
  induction n with
  | zero => simp [ticks]
  | succ n ih =>
    have := tick_fixed (ticks t n)
    rw [ticks_succ]
    obtain ⟨a1, a2, a3, a4, a5, a6, a7⟩ := ih
    obtain ⟨b1, b2, b3, b4, b5, b6, b7⟩ := this
    exact ⟨b1.trans a1, b2.trans a2, b3.trans a3, b4.trans a4, b5.trans a5, b6.trans a6,
      b7.trans a7⟩

theorem ticks_valid {t : Tim} (h : Valid t) (n : ℕ) : Valid (ticks t n) := by
  induction n with
  | zero => exact h
  | succ n ih => rw [ticks_succ]; exact tick_valid ih

theorem ticks_settled {t : Tim} (v : Valid t) (h : Settled t) (n : ℕ) :
    Settled (ticks t n) ∧ pos (ticks t n) = (pos t + n) % full t := by
  induction n with
  | zero =>
    refine ⟨h, ?_⟩
    have e1 : full t = t.arr * (t.psc + 1) + (t.psc + 1) := by unfold full; ring
    have e0 : t.cnt * (t.psc + 1) ≤ t.arr * (t.psc + 1) := Nat.mul_le_mul_right _ h.cnt
    have := v.sub
    have := h.now
    rw [Nat.mod_eq_of_lt (by rw [e1]; unfold pos; omega)]
    rfl
  | succ n ih =>
    obtain ⟨s, e⟩ := ih
    have := tick_settled (ticks_valid v n) s
    rw [ticks_succ]
    refine ⟨this.1, ?_⟩
    rw [this.2, e]
    have e2 : full (ticks t n) = full t := by
      unfold full; rw [(ticks_fixed t n).1, (ticks_fixed t n).2.1]
    rw [e2, Nat.mod_add_mod, Nat.add_assoc]

/-- As long as the counter is beyond its end it counts on. -/
theorem ticks_beyond {t : Tim} (v : Valid t) (on : t.on = true) (h : t.arr < t.cnt) :
    ∀ m, t.cnt * (t.pscNow + 1) + t.sub + m < 2 ^ t.width * (t.pscNow + 1) →
      (ticks t m).cnt * (t.pscNow + 1) + (ticks t m).sub = t.cnt * (t.pscNow + 1) + t.sub + m ∧
      (ticks t m).pscNow = t.pscNow ∧ t.cnt ≤ (ticks t m).cnt := by
  intro m
  induction m with
  | zero => intro _; simp [ticks]
  | succ m ih =>
    intro hm
    obtain ⟨i1, i2, i3⟩ := ih (by omega)
    obtain ⟨f1, f2, f3, f4, f5, f6, f7⟩ := ticks_fixed t m
    have vm := (ticks_valid v m).sub
    rw [ticks_succ]
    unfold tick
    rw [if_neg (by rw [f6, on]; simp)]
    split
    · exact ⟨by simp only; omega, i2, i3⟩
    · rename_i c
      have hs : (ticks t m).sub = t.pscNow := by omega
      have e : ((ticks t m).cnt + 1) * (t.pscNow + 1)
          = t.cnt * (t.pscNow + 1) + t.sub + m + 1 := by
        rw [← i1, hs]; ring
      rw [if_neg]
      · refine ⟨?_, i2, by simp only; omega⟩
        simp only
        omega
      · rw [not_or, f2, f7]
        refine ⟨by omega, ?_⟩
        intro c
        rw [c] at e
        omega

/-- Clocks after which the counter has begun anew, with the new prescaler. -/
def settling (t : Tim) : ℕ :=
  (if t.cnt ≤ t.arr then t.arr + 1 else 2 ^ t.width) * (t.pscNow + 1)

theorem settling_le {t : Tim} (v : Valid t) : (t.cnt + 1) * (t.pscNow + 1) ≤ settling t := by
  have := v.cnt
  apply Nat.mul_le_mul_right
  split <;> omega

/-- The counter begins anew after a time, whatever was before. -/
theorem settles {t : Tim} (v : Valid t) (on : t.on = true) :
    ∃ n, n ≤ settling t ∧ Settled (ticks t n) := by
  have key : ∀ m t, Valid t → t.on = true →
      settling t - (t.cnt * (t.pscNow + 1) + t.sub) = m → ∃ n, n ≤ m ∧ Settled (ticks t n) := by
    intro m
    induction m using Nat.strong_induction_on with
    | _ m ih =>
      intro t v on hm
      have b := settling_le v
      have b' : (t.cnt + 1) * (t.pscNow + 1) = t.cnt * (t.pscNow + 1) + (t.pscNow + 1) := by ring
      have vs := v.sub
      have va := v.arr
      by_cases hend : t.sub = t.pscNow ∧ (t.cnt = t.arr ∨ t.cnt + 1 = 2 ^ t.width)
      · refine ⟨1, by omega, ?_⟩
        rw [ticks_succ]
        show Settled (tick t)
        unfold tick
        rw [if_neg (by simp [on]), if_neg (by omega), if_pos hend.2]
        exact ⟨on, rfl, by simp⟩
      · have vt := tick_valid v
        have fx := tick_fixed t
        have e : (tick t).pscNow = t.pscNow ∧
            (tick t).cnt * (t.pscNow + 1) + (tick t).sub
              = t.cnt * (t.pscNow + 1) + t.sub + 1 ∧
            ((tick t).cnt ≤ t.arr ↔ t.cnt ≤ t.arr) := by
          unfold tick
          rw [if_neg (by simp [on])]
          split
          · exact ⟨rfl, by simp only; omega, Iff.rfl⟩
          · rename_i c
            have hs : t.sub = t.pscNow := by omega
            have hn : ¬ (t.cnt = t.arr ∨ t.cnt + 1 = 2 ^ t.width) := fun d => hend ⟨hs, d⟩
            rw [if_neg hn]
            refine ⟨rfl, ?_, ?_⟩
            · simp only
              rw [hs]; ring
            · simp only
              omega
        have es : settling (tick t) = settling t := by
          unfold settling
          rw [fx.2.1, fx.2.2.2.2.2.2, e.1]
          congr 1
          exact if_congr e.2.2 rfl rfl
        obtain ⟨n, hn, s⟩ := ih (m - 1) (by omega) (tick t) vt (by rw [fx.2.2.2.2.2.1, on])
          (by rw [es, e.1, e.2.1]; omega)
        refine ⟨n + 1, by omega, ?_⟩
        rw [Nat.add_comm, ticks_add]
        exact s
  obtain ⟨n, hn, s⟩ := key _ t v on rfl
  exact ⟨n, by omega, s⟩

/-- The level of a settled timer. -/
theorem level_pos {t : Tim} (v : Valid t) (h : Settled t) {k : Fin 4} (he : t.en k = true)
    (hp : t.pwm k = true) : level t k = decide (pos t < t.ccr k * (t.psc + 1)) := by
  have := v.sub
  have := h.now
  unfold level
  rw [he, hp, Bool.true_and, Bool.true_and]
  congr 1
  apply propext
  unfold pos
  constructor
  · intro c
    have := Nat.mul_le_mul_right (t.psc + 1) c
    have e : t.cnt.succ * (t.psc + 1) = t.cnt * (t.psc + 1) + (t.psc + 1) := by
      rw [Nat.succ_mul]
    omega
  · intro c
    by_contra d
    have := Nat.mul_le_mul_right (t.psc + 1) (not_lt.mp d)
    omega

/-! ## Proof: counting -/

theorem count_shift (F T a : ℕ) :
    Nat.count (fun x => x % F < T) (a + F) = Nat.count (fun x => x % F < T) a +
      Nat.count (fun x => x % F < T) F := by
  induction a with
  | zero => simp
  | succ a ih =>
    rw [show a + 1 + F = (a + F) + 1 by ring, Nat.count_succ, ih, Nat.count_succ,
      Nat.add_mod_right]
    ring

theorem count_periods (F T a n : ℕ) :
    Nat.count (fun x => x % F < T) (a + n * F) = Nat.count (fun x => x % F < T) a +
      n * Nat.count (fun x => x % F < T) F := by
  induction n with
  | zero => simp
  | succ n ih =>
    rw [show a + (n + 1) * F = (a + n * F) + F by ring, count_shift, ih]
    ring

theorem count_one (F T : ℕ) : ∀ m, m ≤ F → Nat.count (fun x => x % F < T) m = min T m := by
  intro m
  induction m with
  | zero => simp
  | succ m ih =>
    intro h
    rw [Nat.count_succ, ih (by omega), Nat.mod_eq_of_lt (by omega)]
    split <;> omega

/-- Clocks with high level in `n` periods. -/
theorem count_high (F T a n : ℕ) :
    Nat.count (fun m => (a + m) % F < T) (n * F) = n * min T F := by
  have h := Nat.count_add (p := fun x => x % F < T) a (n * F)
  rw [count_periods, count_one F T F le_rfl] at h
  omega

end Verif.Fw.AuxPwm
