import Mathlib.Data.List.Chain
import Mathlib.Tactic.Ring
import Mathlib.Tactic.Linarith

/-!
# The main loop and the timer of the firmware (C113)

`main` (fw/moteus.cc:310-343) counts milliseconds with a timer of microseconds that wraps around;
`SystemInfo::PollMillisecond` (fw/system_info.cc:63-88) keeps the counter of milliseconds that clients can
read; `MillisecondTimer` (fw/millisecond_timer.h:59-97) waits.

The width of the timer is that of the chip, 16 or 32 bit: `w` is the number of its values.  Times are
microseconds since the timer was started, for the waiting parts of them.  How long a pass of the loop takes is
left to the environment.
-/

namespace Verif.Fw.MainLoop

/-! ## Model -/

/-- `TIM_MST->CNT` at time `t`. -/
def count (w t : ℕ) : ℕ := t % w

/-- `subtract_us` (fw/millisecond_timer.h:69-71) of two values of the counter. -/
def sub (w a b : ℕ) : ℕ := (a + (w - b)) % w

/-- The variables of the loop: `old_time`, how often `PollMillisecond` was called, and at which passes
(by the number of the pass, the last one first) `Fault(kTimingViolation)` was. -/
structure St where
  old : ℕ
  polls : ℕ
  passes : ℕ
  faults : List ℕ

/-- One pass of the loop (fw/moteus.cc:312-343) that reads the timer at time `t`. -/
def pass (w : ℕ) (timingFault : Bool) (s : St) (t : ℕ) : St :=
  let delta := sub w (count w t) s.old
  let s := if timingFault = true ∧ delta ≥ 4000 then { s with faults := s.passes :: s.faults } else s
  let s := { s with passes := s.passes + 1 }
  if delta ≥ 1000 then { s with polls := s.polls + 1, old := (s.old + 1000) % w } else s

/-- the loop started at `t0` (310) after passes at these times. -/
def run (w : ℕ) (timingFault : Bool) (t0 : ℕ) (ts : List ℕ) : St :=
  ts.foldl (pass w timingFault) ⟨count w t0, 0, 0, []⟩

/-- `ms_count` of `SystemInfoData` after so many calls (fw/system_info.cc:40, 64): a `uint32_t`. -/
def msCount (polls : ℕ) : ℕ := (2 ^ 31 - 300000 + polls) % 2 ^ 32

/-- `read_ms` (fw/millisecond_timer.h:61-63). -/
def readMs (w t : ℕ) : ℕ := count w t / 1000

/-- The loop of `wait_us_helper` (fw/millisecond_timer.h:84-97); the reads of the timer are at these times,
`u` of them a microsecond.  The time of the last read, and the reads that follow. -/
def waitLoop (w u d : ℕ) : ℕ → ℕ → List ℕ → Option (ℕ × List ℕ)
  | _, _, [] => none
  | current, elapsed, t :: ts =>
    let next := count w (t / u)
    let elapsed := (elapsed + sub w next current) % w
    if elapsed ≥ d + 1 then some (t, ts) else waitLoop w u d next elapsed ts

/-- `wait_us_helper` -/
def waitHelper (w u d : ℕ) : List ℕ → Option (ℕ × List ℕ)
  | [] => none
  | t :: ts => waitLoop w u d (count w (t / u)) 0 ts

/-- `wait_us` (fw/millisecond_timer.h:77-83). -/
def waitUs (w u d : ℕ) (ts : List ℕ) : Option (ℕ × List ℕ) :=
  if 50000 < d then (waitHelper w u 50000 ts).bind fun p => waitUs w u (d - 50000) p.2 else waitHelper w u d ts
termination_by d

/-! ## Words of the statements -/

/-- the passes are not more than a millisecond apart. -/
def Quick (t0 : ℕ) (ts : List ℕ) : Prop := List.IsChain (fun a b => a ≤ b ∧ b ≤ a + 1000) (t0 :: ts)

/-- the reads are in order, and so close that the timer does not wrap around between them. -/
def Close (w u : ℕ) (ts : List ℕ) : Prop := List.IsChain (fun a b => a ≤ b ∧ b / u < a / u + (w - 50001)) ts

/-- the last of these times. -/
def last (t0 : ℕ) (ts : List ℕ) : ℕ := (t0 :: ts).getLast (by simp)

/-! ## Proofs -/

private theorem sub_count {w a b : ℕ} (hw : 0 < w) (h : b ≤ a) : sub w (count w a) (count w b) = (a - b) % w := by
  unfold sub count
  have hb : b % w < w := Nat.mod_lt _ hw
  obtain ⟨c, rfl⟩ := Nat.exists_eq_add_of_le h
  have e : b + c - b = c := by omega
  rw [e]
  have h1 : ((b + c) % w + (w - b % w)) % w = ((b + c) + (w - b % w)) % w := by
    rw [Nat.add_mod, Nat.mod_mod, ← Nat.add_mod]
  rw [h1]
  have h2 : b + c + (w - b % w) = c + w * (b / w + 1) := by
    have := Nat.div_add_mod b w
    have : w * (b / w + 1) = w * (b / w) + w := by ring
    omega
  rw [h2, Nat.add_mul_mod_self_left]

/-- what `old_time` stands for. -/
private def Inv (w t0 : ℕ) (s : St) : Prop := s.old = count w (t0 + 1000 * s.polls)

private theorem pass_spec {w t0 : ℕ} (hw : 0 < w) (tf : Bool) {s : St} (hi : Inv w t0 s) {t : ℕ}
    (h1 : t0 + 1000 * s.polls ≤ t) (h2 : t < t0 + 1000 * s.polls + w) :
    Inv w t0 (pass w tf s t) ∧
    (pass w tf s t).polls = (if t0 + 1000 * s.polls + 1000 ≤ t then s.polls + 1 else s.polls) ∧
    (pass w tf s t).faults = (if tf = true ∧ t0 + 1000 * s.polls + 4000 ≤ t then s.passes :: s.faults else s.faults) ∧
    (pass w tf s t).passes = s.passes + 1 := by
  have hd : sub w (count w t) s.old = t - (t0 + 1000 * s.polls) := by
    rw [hi, sub_count hw h1, Nat.mod_eq_of_lt (by omega)]
  have ho : (s.old + 1000) % w = count w (t0 + 1000 * (s.polls + 1)) := by
    have e : t0 + 1000 * (s.polls + 1) = t0 + 1000 * s.polls + 1000 := by ring
    rw [hi, count, count, e, Nat.mod_add_mod]
  have k4 : (4000 ≤ t - (t0 + 1000 * s.polls)) = (t0 + 1000 * s.polls + 4000 ≤ t) := propext (by omega)
  have k1 : (1000 ≤ t - (t0 + 1000 * s.polls)) = (t0 + 1000 * s.polls + 1000 ≤ t) := propext (by omega)
  unfold pass
  simp only [hd, ge_iff_le, k4, k1]
  by_cases c1 : tf = true ∧ t0 + 1000 * s.polls + 4000 ≤ t
  · have c2 : t0 + 1000 * s.polls + 1000 ≤ t := by omega
    rw [if_pos c1, if_pos c2, if_pos c2, if_pos c1]
    exact ⟨ho, rfl, rfl, rfl⟩
  · by_cases c2 : t0 + 1000 * s.polls + 1000 ≤ t
    · rw [if_neg c1, if_pos c2, if_pos c2, if_neg c1]
      exact ⟨ho, rfl, rfl, rfl⟩
    · rw [if_neg c1, if_neg c2, if_neg c2, if_neg c1]
      exact ⟨hi, rfl, rfl, rfl⟩

private theorem run_snoc (w : ℕ) (tf : Bool) (t0 : ℕ) (ts : List ℕ) (t : ℕ) :
    run w tf t0 (ts ++ [t]) = pass w tf (run w tf t0 ts) t := by
  simp [run]

/-- the loop is never a whole turn of the timer behind. -/
def Prompt (w t0 : ℕ) (tf : Bool) (ts : List ℕ) : Prop :=
  ∀ a t b, ts = a ++ t :: b → t < t0 + 1000 * (run w tf t0 a).polls + w

private theorem prompt_init {w t0 : ℕ} {tf : Bool} {ts : List ℕ} {t : ℕ} (h : Prompt w t0 tf (ts ++ [t])) :
    Prompt w t0 tf ts ∧ t < t0 + 1000 * (run w tf t0 ts).polls + w := by
  refine ⟨fun a x b e => h a x (b ++ [t]) (by rw [e]; simp), h ts t [] rfl⟩

/-- **C113, the millisecond work** is never done early, and not at all more often than milliseconds have passed; nothing drifts. -/
theorem C113_polls {w : ℕ} (hw : 0 < w) (tf : Bool) (t0 : ℕ) (ts : List ℕ) (hs : List.IsChain (· ≤ ·) (t0 :: ts))
    (hp : Prompt w t0 tf ts) :
    t0 + 1000 * (run w tf t0 ts).polls ≤ last t0 ts ∧ (run w tf t0 ts).passes = ts.length ∧
    (run w tf t0 ts).old = count w (t0 + 1000 * (run w tf t0 ts).polls) := by
  induction ts using List.reverseRecOn with
  | nil => simp [run, last]
  | append_singleton ts t ih =>
    obtain ⟨hp1, hp2⟩ := prompt_init hp
    rw [← List.cons_append, List.isChain_append] at hs
    obtain ⟨hs1, -, hs2⟩ := hs
    obtain ⟨i1, i2, i3⟩ := ih hs1 hp1
    have hle : last t0 ts ≤ t := hs2 (last t0 ts) (by simp [last, List.getLast?_eq_some_getLast]) t (by simp)
    have hl : last t0 (ts ++ [t]) = t := by simp [last]
    obtain ⟨j1, j2, j3, j4⟩ := pass_spec hw tf (t0 := t0) i3 (t := t) (by omega) hp2
    rw [run_snoc, hl]
    refine ⟨?_, by rw [j4, i2]; simp, j1⟩
    rw [j2]
    split
    · linarith
    · linarith

/-- **C113, the timing fault** is raised in a pass exactly if it is enabled and the millisecond work is 4 ms or more behind. -/
theorem C113_fault {w : ℕ} (hw : 0 < w) (tf : Bool) (t0 : ℕ) (ts : List ℕ) (t : ℕ)
    (hs : List.IsChain (· ≤ ·) (t0 :: (ts ++ [t]))) (hp : Prompt w t0 tf (ts ++ [t])) :
    (run w tf t0 (ts ++ [t])).faults =
      (if tf = true ∧ t0 + 1000 * (run w tf t0 ts).polls + 4000 ≤ t then [ts.length] else []) ++ (run w tf t0 ts).faults := by
  obtain ⟨hp1, hp2⟩ := prompt_init hp
  rw [← List.cons_append, List.isChain_append] at hs
  obtain ⟨hs1, -, hs2⟩ := hs
  obtain ⟨i1, i2, i3⟩ := C113_polls hw tf t0 ts hs1 hp1
  have hle : last t0 ts ≤ t := hs2 (last t0 ts) (by simp [last, List.getLast?_eq_some_getLast]) t (by simp)
  obtain ⟨-, -, j3, -⟩ := pass_spec hw tf (t0 := t0) i3 (t := t) (by omega) hp2
  rw [run_snoc, j3, i2]
  split <;> rfl

/-- **C113, catching up.** A pass does the work once if a millisecond or more is due. -/
theorem C113_step {w : ℕ} (hw : 0 < w) (tf : Bool) (t0 : ℕ) (ts : List ℕ) (t : ℕ)
    (hs : List.IsChain (· ≤ ·) (t0 :: (ts ++ [t]))) (hp : Prompt w t0 tf (ts ++ [t])) :
    (run w tf t0 (ts ++ [t])).polls =
      (run w tf t0 ts).polls + (if t0 + 1000 * ((run w tf t0 ts).polls + 1) ≤ t then 1 else 0) := by
  obtain ⟨hp1, hp2⟩ := prompt_init hp
  rw [← List.cons_append, List.isChain_append] at hs
  obtain ⟨hs1, -, hs2⟩ := hs
  obtain ⟨i1, i2, i3⟩ := C113_polls hw tf t0 ts hs1 hp1
  have hle : last t0 ts ≤ t := hs2 (last t0 ts) (by simp [last, List.getLast?_eq_some_getLast]) t (by simp)
  obtain ⟨-, j2, -, -⟩ := pass_spec hw tf (t0 := t0) i3 (t := t) (by omega) hp2
  have e : t0 + 1000 * ((run w tf t0 ts).polls + 1) = t0 + 1000 * (run w tf t0 ts).polls + 1000 := by ring
  rw [run_snoc, j2, e]
  split <;> rfl

/-- **C113, the counter of milliseconds.** If no pass takes more than a millisecond, the work has been done exactly once for every millisecond
since the start, for ever, whatever the timer does when it wraps around; no timing fault is raised, and
the counter of milliseconds is that number, from 2147183648 on, modulo 2^32. -/
theorem C113_counter {w : ℕ} (hw : 2000 ≤ w) (tf : Bool) (t0 : ℕ) (ts : List ℕ) (hq : Quick t0 ts) :
    (run w tf t0 ts).polls = (last t0 ts - t0) / 1000 ∧ (run w tf t0 ts).faults = [] ∧
    msCount (run w tf t0 ts).polls = (2147183648 + (last t0 ts - t0) / 1000) % 4294967296 := by
  have key : ∀ ts, Quick t0 ts → Prompt w t0 tf ts ∧ t0 ≤ last t0 ts ∧
      last t0 ts < t0 + 1000 * (run w tf t0 ts).polls + 1000 ∧ t0 + 1000 * (run w tf t0 ts).polls ≤ last t0 ts ∧
      (run w tf t0 ts).faults = [] := by
    intro ts
    induction ts using List.reverseRecOn with
    | nil =>
      intro _
      refine ⟨fun a t b e => by simp at e, ?_⟩
      simp [run, last]
    | append_singleton ts t ih =>
      intro hq
      unfold Quick at hq
      have hmono : List.IsChain (· ≤ ·) (t0 :: (ts ++ [t])) := hq.imp (fun _ _ h => h.1)
      rw [← List.cons_append, List.isChain_append] at hq
      obtain ⟨hq1, -, hq2⟩ := hq
      obtain ⟨p, i0, i1, i2, i3⟩ := ih hq1
      have hle := hq2 (last t0 ts) (by simp [last, List.getLast?_eq_some_getLast]) t (by simp)
      have hl : last t0 (ts ++ [t]) = t := by simp [last]
      have hP : Prompt w t0 tf (ts ++ [t]) := by
        intro a x b e
        rcases List.eq_nil_or_concat b with rfl | ⟨b', y, rfl⟩
        · have e1 := List.append_inj_left' e rfl
          have e2 := List.append_inj_right' e rfl
          simp only [List.cons.injEq, and_true] at e2
          rw [← e1, ← e2]
          omega
        · have e' : ts ++ [t] = (a ++ x :: b') ++ [y] := by rw [e]; simp
          exact p a x b' (List.append_inj_left' e' rfl)
      have hc := C113_step (by omega) tf t0 ts t hmono hP
      have hf := C113_fault (by omega) tf t0 ts t hmono hP
      have e : t0 + 1000 * ((run w tf t0 ts).polls + 1) = t0 + 1000 * (run w tf t0 ts).polls + 1000 := by ring
      rw [e] at hc
      refine ⟨hP, ?_, ?_, ?_, ?_⟩
      · rw [hl]; omega
      · rw [hl, hc]
        split <;> linarith
      · rw [hl, hc]
        split <;> linarith
      · rw [hf, i3, if_neg (by omega)]
        rfl
  obtain ⟨-, h0, h1, h2, h3⟩ := key ts hq
  have hpolls : (run w tf t0 ts).polls = (last t0 ts - t0) / 1000 := by omega
  refine ⟨hpolls, h3, ?_⟩
  rw [hpolls, msCount]
  norm_num

/-- the hypotheses: passes around the end of a timer of 16 bit; a slow pass. -/
example : Quick 65000 [65400, 65900, 66800] ∧ (run 65536 true 65000 [65400, 65900, 66800]).polls = 1 := by
  refine ⟨by simp [Quick], by decide⟩

example : List.IsChain (· ≤ ·) (0 :: ([300, 4800] ++ [4900])) ∧ (run 65536 true 0 ([300, 4800] ++ [4900])).faults = [1] ∧
    (run 65536 true 0 ([300, 4800] ++ [4900])).polls = 2 := by
  refine ⟨by simp, by decide, by decide⟩

/-- **C113 is violated: after a pause of a turn of the timer** (65 ms with 16 bit, 71 min with 32 bit) neither the milliseconds nor the fault are noticed. -/
theorem C113_pause_refuted (w : ℕ) (hw : 0 < w) (tf : Bool) (t0 : ℕ) :
    (run w tf t0 [t0 + w]).polls = 0 ∧ (run w tf t0 [t0 + w]).faults = [] := by
  have h : sub w (count w (t0 + w)) (count w t0) = 0 := by
    rw [sub_count hw (by omega)]
    simp
  simp [run, pass, h]

/-- **C113, the time since the start** in milliseconds is right during the first turn of the timer. -/
theorem C113_read_ms_partial (w t : ℕ) (h : t < w) : readMs w t = t / 1000 := by
  rw [readMs, count, Nat.mod_eq_of_lt h]

example : (15000 : ℕ) < 65536 := by decide

/-- **C113 is violated: after a turn of the timer** it begins with 0 again, so that encoders configured then are held back
as after a start (`read_ms() > 10`, fw/aux_port.h:316, 339). -/
theorem C113_read_ms_refuted (w t : ℕ) (h : t < 11000) (hw : t < w) : ¬ 10 < readMs w (w + t) := by
  rw [readMs, count, Nat.add_mod_left, Nat.mod_eq_of_lt hw]
  omega

example : (0 : ℕ) < 11000 ∧ (0 : ℕ) < 2 ^ 32 := by decide

private theorem waitLoop_spec {w u d : ℕ} (hw : 50001 < w) (hd : d ≤ 50000) (t0 : ℕ) : ∀ (ts : List ℕ) (s : ℕ), t0 ≤ s →
    s / u < t0 / u + d + 1 → Close w u (s :: ts) → ∀ t rest, 
    (waitLoop w u d (count w (s / u)) (s / u - t0 / u) ts = some (t, rest) ↔
      ∃ pre, ts = pre ++ t :: rest ∧ (∀ x ∈ pre, x / u < t0 / u + d + 1) ∧ t0 / u + d + 1 ≤ t / u) := by
  intro ts
  induction ts with
  | nil => intro s _ _ _ t rest; simp [waitLoop]
  | cons x ts ih =>
    intro s h0 h1 hc t rest
    unfold Close at hc
    rw [List.isChain_cons_cons] at hc
    obtain ⟨⟨hsx, hgap⟩, hc⟩ := hc
    have hm : s / u ≤ x / u := Nat.div_le_div_right hsx
    have hm0 : t0 / u ≤ s / u := Nat.div_le_div_right h0
    have he : (s / u - t0 / u + sub w (count w (x / u)) (count w (s / u))) % w = x / u - t0 / u := by
      rw [sub_count (by omega) hm, Nat.mod_eq_of_lt (a := x / u - s / u) (by omega), Nat.mod_eq_of_lt (by omega)]
      omega
    rw [waitLoop]
    simp only [he, ge_iff_le]
    by_cases hx : d + 1 ≤ x / u - t0 / u
    · rw [if_pos hx]
      constructor
      · intro h
        simp only [Option.some.injEq, Prod.mk.injEq] at h
        obtain ⟨rfl, rfl⟩ := h
        exact ⟨[], rfl, by simp, by omega⟩
      · rintro ⟨pre, e, hp, ht⟩
        cases pre with
        | nil =>
          simp only [List.nil_append, List.cons.injEq] at e
          simp [e]
        | cons y pre =>
          simp only [List.cons_append, List.cons.injEq] at e
          have := hp y (by simp)
          rw [← e.1] at this
          omega
    · rw [if_neg hx, ih x (by omega) (by omega) hc t rest]
      constructor
      · rintro ⟨pre, e, hp, ht⟩
        refine ⟨x :: pre, by rw [e]; rfl, ?_, ht⟩
        intro y hy
        rcases List.mem_cons.1 hy with rfl | hy
        · omega
        · exact hp y hy
      · rintro ⟨pre, e, hp, ht⟩
        cases pre with
        | nil =>
          simp only [List.nil_append, List.cons.injEq] at e
          rw [e.1] at hx
          omega
        | cons y pre =>
          simp only [List.cons_append, List.cons.injEq] at e
          exact ⟨pre, e.2, fun z hz => hp z (by simp [hz]), ht⟩

/-- **C113, short waits** end with the first read of the timer at which the counter has advanced by one more than
asked for. -/
theorem C113_wait {w u d : ℕ} (hw : 50001 < w) (hd : d ≤ 50000) (t0 : ℕ) (ts : List ℕ) (hc : Close w u (t0 :: ts)) (t : ℕ)
    (rest : List ℕ) : waitHelper w u d (t0 :: ts) = some (t, rest) ↔
      ∃ pre, ts = pre ++ t :: rest ∧ (∀ x ∈ pre, x / u < t0 / u + d + 1) ∧ t0 / u + d + 1 ≤ t / u := by
  have := waitLoop_spec (u := u) hw hd t0 ts t0 (le_refl _) (by omega) hc t rest
  rw [Nat.sub_self] at this
  exact this

/-- **C113, waits are long enough**: after `wait_us(d)` more than `d` microseconds have passed since its first read of the timer, for every `d`. -/
theorem C113_long {w u : ℕ} (hw : 50001 < w) (hu : 0 < u) (d : ℕ) : ∀ (t0 : ℕ) (ts : List ℕ), Close w u (t0 :: ts) →
    ∀ t rest, waitUs w u d (t0 :: ts) = some (t, rest) → t0 + d * u < t := by
  have one : ∀ (d t0 t : ℕ), t0 / u + d + 1 ≤ t / u → t0 + d * u < t := by
    intro d t0 t h
    have h1 : t0 < (t0 / u + 1) * u := by
      have := Nat.div_add_mod t0 u
      have := Nat.mod_lt t0 hu
      nlinarith
    have h2 : t / u * u ≤ t := Nat.div_mul_le_self t u
    have h3 : (t0 / u + d + 1) * u ≤ t / u * u := Nat.mul_le_mul_right u h
    nlinarith
  induction d using Nat.strong_induction_on with
  | _ d ih =>
    intro t0 ts hc t rest h
    rw [waitUs] at h
    by_cases hd : 50000 < d
    · rw [if_pos hd, Option.bind_eq_some_iff] at h
      obtain ⟨⟨t1, r1⟩, h1, h2⟩ := h
      obtain ⟨pre, e, hp, ht⟩ := (C113_wait hw (le_refl _) t0 ts hc t1 r1).1 h1
      have a1 := one 50000 t0 t1 ht
      cases r1 with
      | nil =>
        exfalso
        rw [waitUs] at h2
        simp only at h2
        split at h2
        · simp [waitHelper] at h2
        · simp [waitHelper] at h2
      | cons t2 r2 =>
        have hc2 : Close w u (t2 :: r2) ∧ t1 ≤ t2 := by
          subst e
          unfold Close at hc ⊢
          rw [← List.cons_append, List.isChain_append] at hc
          have := hc.2.1
          rw [List.isChain_cons_cons] at this
          exact ⟨this.2, this.1.1⟩
        have a2 := ih (d - 50000) (by omega) t2 r2 hc2.1 t rest h2
        have e2 : d * u = 50000 * u + (d - 50000) * u := by
          have e3 : d = 50000 + (d - 50000) := (Nat.add_sub_cancel' (le_of_lt hd)).symm
          conv_lhs => rw [e3]
          rw [Nat.add_mul]
        omega
    · rw [if_neg hd] at h
      obtain ⟨pre, e, hp, ht⟩ := (C113_wait hw (by omega) t0 ts hc t rest).1 h
      exact one d t0 t ht

/-- the hypotheses: ten parts a microsecond, a wait of 2 µs from 65534.9 µs on with a timer of 16 bit. -/
example : Close 65536 10 [655349, 655355, 655362, 655371, 655380] ∧
    waitUs 65536 10 2 [655349, 655355, 655362, 655371, 655380] = some (655371, [655380]) := by
  refine ⟨by simp [Close], ?_⟩
  rw [waitUs]
  decide +kernel

end Verif.Fw.MainLoop
