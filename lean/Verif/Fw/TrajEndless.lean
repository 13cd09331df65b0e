import Verif.Fw.TrajDone

/-!
# Trajectories that never end

Property C70: witnesses where the trajectory generator of the firmware never
completes a motion to a fixed target, in binary32.
-/

namespace Verif.Fw

open Verif.Float TrajWitness

/-- A run that comes back to a state it has been in goes on forever. -/
theorem trajRun_loop {A : Ar} {c : TrajConfig} {i : TrajIn} {x : TrajRun} {a p : ℕ} (hp : 0 < p)
    (h : trajRun A c x (List.replicate (a + p) (.cycle i)) = trajRun A c x (List.replicate a (.cycle i)))
    {P : TrajRun → Prop} (hP : ∀ n < a + p, P (trajRun A c x (List.replicate n (.cycle i)))) (n : ℕ) :
    P (trajRun A c x (List.replicate n (.cycle i))) := by
  induction n using Nat.strongRecOn with
  | _ n ih =>
    by_cases hn : n < a + p
    · exact hP n hn
    · obtain ⟨k, rfl⟩ : ∃ k, n = a + p + k := ⟨n - (a + p), by omega⟩
      have e : trajRun A c x (List.replicate (a + p + k) (.cycle i)) =
          trajRun A c x (List.replicate (a + k) (.cycle i)) := by
        rw [List.replicate_add, List.replicate_add a k]
        unfold trajRun at h ⊢
        rw [List.foldl_append, List.foldl_append, h]
      rw [e]
      exact ih _ (by omega)

/-- A cycle at 15 kHz with target velocity 0. -/
def usualCycle : TrajIn := { limitedCycle (.fin 0) with rateHz := .fin 15000 }

/-- The states of a run. -/
def statesOf (A : Ar) (c : TrajConfig) (i : TrajIn) : ℕ → TrajRun → List TrajRun
  | 0, _ => []
  | n + 1, x => x :: statesOf A c i n (trajStep A c x (.cycle i))

theorem statesOf_get {A : Ar} {c : TrajConfig} {i : TrajIn} {P : TrajRun → Prop} {n : ℕ} {x : TrajRun}
    (h : ∀ y ∈ statesOf A c i n x, P y) : ∀ k < n, P (trajRun A c x (List.replicate k (.cycle i))) := by
  induction n generalizing x with
  | zero => intro k hk; omega
  | succ n ih =>
    intro k hk
    cases k with
    | zero => exact h x (by simp [statesOf])
    | succ k =>
      have := ih (x := trajStep A c x (.cycle i)) (fun y hy => h y (by simp [statesOf, hy])) k (by omega)
      rw [List.replicate_succ]
      exact this

/-- At rest, 9/65536 turns from the target. -/
def nearTarget : TrajRun :=
  ⟨moving 0 0, limitedCommand (some (9 * 4294967296)) (63 / 256) (16875 / 16), .fin 0⟩

/-- **C70 is violated.** At 15 kHz, with a velocity limit of 63/256 turns per second
and an acceleration limit of 1054.6875 turns per second squared, a motion by
9/65536 turns from rest to rest never ends. -/
theorem C70_endless_refuted (n : ℕ) :
    let x := trajRun .single (cfg .nan .nan) nearTarget (List.replicate n (.cycle usualCycle))
    x.s.done = false ∧ x.d.posRaw = some (9 * 4294967296) := by
  have h : ∀ y ∈ statesOf .single (cfg .nan .nan) usualCycle 23 nearTarget,
      y.s.done = false ∧ y.d.posRaw = some (9 * 4294967296) := by decide +kernel
  exact trajRun_loop (a := 9) (p := 14) (by norm_num) (by decide +kernel)
    (P := fun x => x.s.done = false ∧ x.d.posRaw = some (9 * 4294967296)) (statesOf_get h) n

/-- The motion that never ends is an oscillation around the target: again and again
the velocity is at the limit in both directions. -/
theorem C70_oscillates (N : ℕ) :
    (∃ n ≥ N, (trajRun .single (cfg .nan .nan) nearTarget
      (List.replicate n (.cycle usualCycle))).s.cv = some (.fin (63 / 256))) ∧
    ∃ n ≥ N, (trajRun .single (cfg .nan .nan) nearTarget
      (List.replicate n (.cycle usualCycle))).s.cv = some (.fin (-63 / 256)) := by
  have loop : ∀ b k : ℕ, 9 ≤ b →
      trajRun .single (cfg .nan .nan) nearTarget (List.replicate (b + 14 * k) (.cycle usualCycle)) =
      trajRun .single (cfg .nan .nan) nearTarget (List.replicate b (.cycle usualCycle)) := by
    intro b k hb
    have h : trajRun .single (cfg .nan .nan) nearTarget (List.replicate (9 + 14) (.cycle usualCycle)) =
      trajRun .single (cfg .nan .nan) nearTarget (List.replicate 9 (.cycle usualCycle)) := by decide +kernel
    induction k with
    | zero => rfl
    | succ k ih =>
      rw [← ih, show b + 14 * (k + 1) = 9 + 14 + (b - 9 + 14 * k) by omega,
        show b + 14 * k = 9 + (b - 9 + 14 * k) by omega, List.replicate_add (9 + 14),
        List.replicate_add 9 (b - 9 + 14 * k)]
      unfold trajRun at h ⊢
      rw [List.foldl_append, List.foldl_append, h]
  refine ⟨⟨10 + 14 * N, by omega, ?_⟩, ⟨17 + 14 * N, by omega, ?_⟩⟩
  · rw [loop _ _ (by omega)]; decide +kernel
  · rw [loop _ _ (by omega)]; decide +kernel

/-- Moving at 1/64 turns per second when a command with a velocity limit of 1/128
arrives, the target half a turn away. -/
def tooFast : TrajRun :=
  ⟨moving 0 (1 / 64), limitedCommand (some 140737488355328) (1 / 128) (1875 / 4), .fin 0⟩

/-- **C70 is violated when a cycle of acceleration is more than twice the velocity
limit.** The velocity alternates between 1/64 and -1/64 forever: it never gets
within the limit, and the motor never gets any nearer to its target. -/
theorem C70_overspeed_refuted (n : ℕ) :
    let x := trajRun .single (cfg .nan .nan) tooFast (List.replicate n (.cycle usualCycle))
    x.s.done = false ∧ (x.s.cv = some (.fin (1 / 64)) ∨ x.s.cv = some (.fin (-1 / 64))) ∧
    (x.s.cp = some 0 ∨ x.s.cp = some (-293142528)) := by
  have h : ∀ y ∈ statesOf .single (cfg .nan .nan) usualCycle 3 tooFast, y.s.done = false ∧
      (y.s.cv = some (.fin (1 / 64)) ∨ y.s.cv = some (.fin (-1 / 64))) ∧
      (y.s.cp = some 0 ∨ y.s.cp = some (-293142528)) := by decide +kernel
  exact trajRun_loop (a := 1) (p := 2) (by norm_num) (by decide +kernel)
    (P := fun y => y.s.done = false ∧
      (y.s.cv = some (.fin (1 / 64)) ∨ y.s.cv = some (.fin (-1 / 64))) ∧
      (y.s.cp = some 0 ∨ y.s.cp = some (-293142528))) (statesOf_get h) n

end Verif.Fw
