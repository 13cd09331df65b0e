import Verif.Commands.Props
import Mathlib.Tactic.Ring
import Mathlib.Data.List.Perm.Basic

/-!
# Routing and waiting

Model of lib/python/moteus/router.py:35-43 (`Router.cycle`) and of
lib/python/moteus/moteus.py:1013-1044 (`set_position_wait_complete`), with the
proofs of C45 and C48.
-/

namespace Verif.Tool

/-! ## Router -/

section Router
variable {T C R E : Type}

/-- router.py:36-40: what is handed to each transport.  `dest` is the
`destination` of a command. -/
def routerArguments (dest : C → Nat) (table : List (T × List Nat)) (commands : List C) :
    List (T × List C) :=
  (table.map fun e => (e.1, commands.filter fun c => decide (dest c ∈ e.2))).filter
    fun a => decide (a.2.length ≠ 0)

/-- router.py:41-43: `asyncio.gather` of the transports, then the
concatenation of the results.  `answer i t cs` is what the `cycle` of the
transport `t` gives in this call (`i`-th task, in whatever order they are
executed); with an exception in any of them `gather` raises one of them. -/
def gather (answer : Nat → T → List C → Except E (List R)) : Nat → List (T × List C) →
    Except E (List R)
  | _, [] => .ok []
  | i, (t, cs) :: rest =>
    match answer i t cs, gather answer (i + 1) rest with
    | .ok r, .ok rs => .ok (r ++ rs)
    | .error e, _ => .error e
    | .ok _, .error e => .error e

/-- router.py:35-43 `Router.cycle` -/
def routerCycle (dest : C → Nat) (table : List (T × List Nat)) (commands : List C)
    (answer : Nat → T → List C → Except E (List R)) : Except E (List R) :=
  gather answer 0 (routerArguments dest table commands)

/-- C45: every transport that lists the destination of some command gets one
call with exactly the commands whose destination it lists, in the original
order; all other transports get none.  The calls are made in table order. -/
theorem C45_calls (dest : C → Nat) (table : List (T × List Nat)) (commands : List C) :
    routerArguments dest table commands =
      (table.filter fun e => commands.any fun c => decide (dest c ∈ e.2)).map
        fun e => (e.1, commands.filter fun c => decide (dest c ∈ e.2)) := by
  unfold routerArguments
  rw [List.filter_map]
  congr 1
  refine List.filter_congr fun e _ => ?_
  simp only [Function.comp_apply, ne_eq, List.length_eq_zero_iff, List.filter_eq_nil_iff,
    decide_not, decide_eq_true_eq]
  rw [Bool.eq_iff_iff]
  simp

/-- Number of transports that get a command. -/
theorem C45_count (dest : C → Nat) [DecidableEq C] (table : List (T × List Nat))
    (commands : List C) (c : C) :
    ((routerArguments dest table commands).map fun a => a.2.count c).sum =
      (table.filter fun e => decide (dest c ∈ e.2)).length * commands.count c := by
  have h1 : ∀ l : List (T × List C),
      ((l.filter fun a => decide (a.2.length ≠ 0)).map fun a => a.2.count c).sum =
        (l.map fun a => a.2.count c).sum := by
    intro l
    induction l with
    | nil => rfl
    | cons a l ih =>
      rw [List.filter_cons]
      split
      · rw [List.map_cons, List.sum_cons, ih, List.map_cons, List.sum_cons]
      · next h =>
        simp only [ne_eq, decide_not, Bool.not_eq_true', decide_eq_false_iff_not, not_not,
          List.length_eq_zero_iff] at h
        rw [ih, List.map_cons, List.sum_cons, h]
        simp
  unfold routerArguments
  rw [h1, List.map_map]
  induction table with
  | nil => simp
  | cons e table ih =>
    rw [List.map_cons, List.sum_cons, ih, List.filter_cons]
    show List.count c (commands.filter fun c => decide (dest c ∈ e.2)) + _ = _
    by_cases h : dest c ∈ e.2
    · rw [if_pos (by simpa using h), List.count_filter (by simpa using h), List.length_cons,
        Nat.succ_mul, Nat.add_comm]
    · rw [if_neg (by simpa using h), List.count_eq_zero.2 (by simp [h]), Nat.zero_add]

/-- C45: if the destination of every command is listed by exactly one
transport, each command is delivered exactly once: the calls together contain
the same commands the same number of times. -/
theorem C45_exactly_once (dest : C → Nat) [DecidableEq C] (table : List (T × List Nat))
    (commands : List C)
    (h : ∀ c ∈ commands, (table.filter fun e => decide (dest c ∈ e.2)).length = 1) :
    ((routerArguments dest table commands).flatMap fun a => a.2).Perm commands := by
  rw [List.perm_iff_count]
  intro c
  have e : ∀ l : List (T × List C),
      (l.flatMap fun a => a.2).count c = (l.map fun a => a.2.count c).sum := by
    intro l
    induction l with
    | nil => rfl
    | cons a l ih => rw [List.flatMap_cons, List.count_append, ih]; rfl
  rw [e, C45_count]
  by_cases hc : c ∈ commands
  · rw [h c hc, Nat.one_mul]
  · rw [List.count_eq_zero.2 hc, Nat.mul_zero]

/-- C45: a destination that no transport lists is dropped without an error,
one that two transports list is sent twice. -/
theorem C45_unlisted (dest : C → Nat) (table : List (T × List Nat)) (commands : List C) (c : C)
    (h : ∀ e ∈ table, dest c ∉ e.2) :
    ∀ a ∈ routerArguments dest table commands, c ∉ a.2 := by
  intro a ha hc
  rw [C45_calls] at ha
  obtain ⟨e, he, rfl⟩ := List.mem_map.1 ha
  have := (List.mem_filter.1 hc).2
  exact h e (List.mem_filter.1 he).1 (by simpa using this)

/-- C45: no reply is lost, invented or reordered: if all transports answer,
the result is the concatenation of what they answered. -/
theorem C45_replies (answer : Nat → T → List C → Except E (List R))
    (calls : List (T × List C)) (i : Nat) (rs : List (List R))
    (h : rs.length = calls.length)
    (ha : ∀ j (hj : j < calls.length), answer (i + j) calls[j].1 calls[j].2 =
      .ok (rs[j]'(h ▸ hj))) :
    gather answer i calls = .ok rs.flatten := by
  induction calls generalizing i rs with
  | nil =>
    have : rs = [] := List.length_eq_zero_iff.1 h
    subst this; rfl
  | cons a calls ih =>
    obtain ⟨t, cs⟩ := a
    cases rs with
    | nil => cases h
    | cons r rs =>
      have h0 : answer i t cs = .ok r := ha 0 (by simp)
      have ih' := ih (i + 1) rs (by simpa using h) (fun j hj => by
        have := ha (j + 1) (by simpa using hj)
        simpa [Nat.add_assoc, Nat.add_comm 1 j] using this)
      unfold gather
      rw [h0, ih']
      rfl

/-- C45: an exception of a transport is never swallowed. -/
theorem C45_error (answer : Nat → T → List C → Except E (List R))
    (calls : List (T × List C)) (i : Nat) :
    (∃ r, gather answer i calls = .ok r) ↔
      ∀ j (hj : j < calls.length), ∃ r, answer (i + j) calls[j].1 calls[j].2 = .ok r := by
  induction calls generalizing i with
  | nil => simp [gather]
  | cons a calls ih =>
    obtain ⟨t, cs⟩ := a
    have ih := ih (i + 1)
    constructor
    · rintro ⟨r, hr⟩ j hj
      unfold gather at hr
      split at hr
      · next r1 rs1 h1 h2 =>
        cases j with
        | zero => exact ⟨r1, h1⟩
        | succ j =>
          have := ih.1 ⟨rs1, h2⟩ j (by simpa using hj)
          simpa [Nat.add_assoc, Nat.add_comm 1 j] using this
      · cases hr
      · cases hr
    · intro h
      obtain ⟨r1, h1⟩ := h 0 (by simp)
      obtain ⟨rs1, h2⟩ := ih.2 fun j hj => by
        have := h (j + 1) (by simpa using hj)
        simpa [Nat.add_assoc, Nat.add_comm 1 j] using this
      refine ⟨r1 ++ rs1, ?_⟩
      unfold gather
      have h1 : answer i t cs = .ok r1 := h1
      rw [h1, h2]

/-- Two buses; commands are represented by their destinations. -/
example : routerArguments (T := String) (C := Nat) id [("a", [1, 2]), ("b", [3]), ("c", [4])]
    [3, 1, 2, 1, 3] = [("a", [1, 2, 1]), ("b", [3, 3])] := by decide

example : ((routerArguments (T := Nat) (C := Nat) id [(0, [1, 2]), (1, [3])] [3, 1, 3]).flatMap
    fun a => a.2).Perm [3, 1, 3] :=
  C45_exactly_once id _ _ (by decide)

end Router

/-! ## Waiting for completion -/

/-- A received result: the value of the register TRAJECTORY_COMPLETE if the
reply has it (an integer, see moteus.py:475-476). -/
structure Reply where
  complete : Option Int
deriving DecidableEq, Repr

inductive Outcome
  | returned (poll : Nat) (reply : Reply)
  | keyError (poll : Nat)
deriving DecidableEq, Repr

/-- moteus.py:1030-1044, the `while True` loop: `k` turns starting with poll
`i`; `none` if the loop is still running after them.  `poll i` is the result
of `set_position` in turn `i`, `none` for a lost reply. -/
def waitLoop (poll : Nat → Option Reply) : Nat → Nat → Nat → Option Outcome
  | 0, _, _ => none
  | k + 1, i, count =>
    let count := if (poll i).isSome then count - 1 else count
    match poll i with
    | none => waitLoop poll k (i + 1) count
    | some r =>
      if count = 0 then
        match r.complete with
        | none => some (.keyError i)
        | some v => if v ≠ 0 then some (.returned i r) else waitLoop poll k (i + 1) count
      else waitLoop poll k (i + 1) count

/-- moteus.py:1013-1044 `set_position_wait_complete`, observed for `k` polls. -/
def waitComplete (poll : Nat → Option Reply) (k : Nat) : Option Outcome := waitLoop poll k 0 2

/-- The specification: poll `i` brings a reply after an earlier reply. -/
def Later (poll : Nat → Option Reply) (i : Nat) (r : Reply) : Prop :=
  poll i = some r ∧ ∃ j < i, (poll j).isSome

/-- poll `i` ends the loop. -/
def Ends (poll : Nat → Option Reply) (i : Nat) : Prop :=
  ∃ r, Later poll i r ∧ r.complete ≠ some 0

/-- Before turn `i` the counter is 2, 1 or 0 for none, one or more replies. -/
def CountOk (poll : Nat → Option Reply) (i count : Nat) : Prop :=
  count ≤ 2 ∧ (count = 2 ↔ ∀ j < i, (poll j) = none) ∧
    (count = 0 → ∃ j < i, (poll j).isSome)

theorem countOk_step (poll : Nat → Option Reply) (i count : Nat) (h : CountOk poll i count) :
    CountOk poll (i + 1) (if (poll i).isSome then count - 1 else count) := by
  obtain ⟨h1, h2, h3⟩ := h
  cases hp : poll i with
  | none =>
    refine ⟨by simpa using h1, ?_, ?_⟩
    · simp only [Option.isSome_none, Bool.false_eq_true, if_false]
      rw [h2]
      constructor
      · intro h j hj
        rcases Nat.lt_succ_iff_lt_or_eq.1 hj with hj | rfl
        · exact h j hj
        · exact hp
      · exact fun h j hj => h j (by omega)
    · simp only [Option.isSome_none, Bool.false_eq_true, if_false]
      intro h
      obtain ⟨j, hj, hs⟩ := h3 h
      exact ⟨j, by omega, hs⟩
  | some r =>
    refine ⟨by simp; omega, ?_, ?_⟩
    · simp only [Option.isSome_some, if_true]
      constructor
      · intro h; omega
      · intro h; have := h i (by omega); rw [hp] at this; cases this
    · intro _; exact ⟨i, by omega, by simp [hp]⟩

theorem count_zero_iff (poll : Nat → Option Reply) (i count : Nat) (h : CountOk poll i count) :
    count - 1 = 0 ↔ ∃ j < i, (poll j).isSome := by
  obtain ⟨h1, h2, h3⟩ := h
  constructor
  · intro hc
    by_contra hn
    have : count = 2 := h2.2 fun j hj => by
      cases hj' : poll j with
      | none => rfl
      | some r => exact absurd ⟨j, hj, by simp [hj']⟩ hn
    omega
  · rintro ⟨j, hj, hs⟩
    have : count ≠ 2 := fun e => by rw [h2.1 e j hj] at hs; cases hs
    omega

theorem waitLoop_spec (poll : Nat → Option Reply) (k i count : Nat) (h : CountOk poll i count)
    (hb : ∀ j < i, ¬ Ends poll j) :
    (waitLoop poll k i count = none ↔ ∀ j < i + k, ¬ Ends poll j) ∧
    (∀ n r, waitLoop poll k i count = some (.returned n r) ↔
      n < i + k ∧ Later poll n r ∧ (∃ v, r.complete = some v ∧ v ≠ 0) ∧ ∀ j < n, ¬ Ends poll j) ∧
    (∀ n, waitLoop poll k i count = some (.keyError n) ↔
      n < i + k ∧ (∃ r, Later poll n r ∧ r.complete = none) ∧ ∀ j < n, ¬ Ends poll j) := by
  induction k generalizing i count with
  | zero =>
    refine ⟨by simpa [waitLoop] using hb, fun n r => ?_, fun n => ?_⟩
    · simp only [waitLoop, reduceCtorEq, false_iff]
      rintro ⟨hn, hl, ⟨v, hv, hv0⟩, _⟩
      exact hb n (by omega) ⟨r, hl, by rw [hv]; simpa using hv0⟩
    · simp only [waitLoop, reduceCtorEq, false_iff]
      rintro ⟨hn, ⟨r, hl, hv⟩, _⟩
      exact hb n (by omega) ⟨r, hl, by rw [hv]; simp⟩
  | succ k ih =>
    have step : ¬ Ends poll i → _ := fun he => ih (i + 1) _ (countOk_step poll i count h)
      fun j hj => by
        rcases Nat.lt_succ_iff_lt_or_eq.1 hj with hj | rfl
        · exact hb j hj
        · exact he
    have hadd : i + 1 + k = i + (k + 1) := by omega
    rw [hadd] at step
    cases hp : poll i with
    | none =>
      have he : ¬ Ends poll i := by
        rintro ⟨r, hl, _⟩; rw [hl.1] at hp; cases hp
      have := step he
      unfold waitLoop
      simp only [hp] at this ⊢
      exact this
    | some r =>
      have hc := count_zero_iff poll i count h
      by_cases h0 : count - 1 = 0
      · have hl : Later poll i r := ⟨hp, hc.1 h0⟩
        by_cases hr : r.complete = some 0
        · have he : ¬ Ends poll i := by
            rintro ⟨r', hl', h'⟩
            rw [hl'.1] at hp; cases hp; exact h' hr
          have := step he
          unfold waitLoop
          simp only [hp, Option.isSome_some, if_true, if_pos h0, hr, ne_eq, not_true_eq_false,
            if_false] at this ⊢
          exact this
        · have he : Ends poll i := ⟨r, hl, hr⟩
          have huniq : ∀ n, n < i + (k + 1) → (∀ j < n, ¬ Ends poll j) → Ends poll n → n = i := by
            intro n _ hn hen
            rcases Nat.lt_trichotomy n i with hlt | heq | hgt
            · exact absurd hen (hb n hlt)
            · exact heq
            · exact absurd he (hn i hgt)
          cases hv : r.complete with
          | none =>
            have e : waitLoop poll (k + 1) i count = some (.keyError i) := by
              unfold waitLoop
              simp only [hp, Option.isSome_some, if_true, if_pos h0, hv]
            rw [e]
            refine ⟨by simpa using ⟨i, by omega, he⟩, fun n r' => ?_, fun n => ?_⟩
            · simp only [Option.some.injEq, reduceCtorEq, false_iff]
              rintro ⟨hn, hl', ⟨v, hv', hv0⟩, hj⟩
              have := huniq n hn hj ⟨r', hl', by rw [hv']; simpa using hv0⟩
              subst this
              rw [Later, hp] at hl'
              have := hl'.1; cases this
              rw [hv] at hv'; cases hv'
            · simp only [Option.some.injEq, Outcome.keyError.injEq]
              constructor
              · rintro rfl; exact ⟨by omega, ⟨r, hl, hv⟩, hb⟩
              · rintro ⟨hn, ⟨r', hl', hv'⟩, hj⟩
                exact (huniq n hn hj ⟨r', hl', by rw [hv']; simp⟩).symm
          | some v =>
            have hv0 : v ≠ 0 := by rintro rfl; exact hr hv
            have e : waitLoop poll (k + 1) i count = some (.returned i r) := by
              unfold waitLoop
              simp only [hp, Option.isSome_some, if_true, if_pos h0, hv, if_pos hv0]
            rw [e]
            refine ⟨by simpa using ⟨i, by omega, he⟩, fun n r' => ?_, fun n => ?_⟩
            · simp only [Option.some.injEq, Outcome.returned.injEq]
              constructor
              · rintro ⟨rfl, rfl⟩; exact ⟨by omega, hl, ⟨v, hv, hv0⟩, hb⟩
              · rintro ⟨hn, hl', ⟨v', hv', hv0'⟩, hj⟩
                have := huniq n hn hj ⟨r', hl', by rw [hv']; simpa using hv0'⟩
                subst this
                rw [Later, hp] at hl'
                exact ⟨rfl, by simpa using hl'.1⟩
            · simp only [Option.some.injEq, reduceCtorEq, false_iff]
              rintro ⟨hn, ⟨r', hl', hv'⟩, hj⟩
              have := huniq n hn hj ⟨r', hl', by rw [hv']; simp⟩
              subst this
              rw [Later, hp] at hl'
              have := hl'.1; cases this
              rw [hv] at hv'; cases hv'
      · have he : ¬ Ends poll i := by
          rintro ⟨r', hl', _⟩
          exact h0 (hc.2 hl'.2)
        have := step he
        unfold waitLoop
        simp only [hp, Option.isSome_some, if_true, if_neg h0] at this ⊢
        exact this

theorem countOk_init (poll : Nat → Option Reply) : CountOk poll 0 2 :=
  ⟨by omega, by simp, by simp⟩

/-- C48: within the first `k` polls the call returns a reply exactly if it is
the reply of a poll `n`, reports the trajectory complete, and comes after an
earlier reply, and no earlier poll ended the call.  Lost replies (`none`)
never count. -/
theorem C48_returns (poll : Nat → Option Reply) (k n : Nat) (r : Reply) :
    waitComplete poll k = some (.returned n r) ↔
      n < k ∧ Later poll n r ∧ (∃ v, r.complete = some v ∧ v ≠ 0) ∧ ∀ j < n, ¬ Ends poll j := by
  have := (waitLoop_spec poll k 0 2 (countOk_init poll) (by simp)).2.1 n r
  simpa [waitComplete] using this

/-- C48: it is still polling after `k` polls exactly if none of them was a
later reply with a non-zero (or missing) completion flag. -/
theorem C48_polling (poll : Nat → Option Reply) (k : Nat) :
    waitComplete poll k = none ↔ ∀ j < k, ¬ Ends poll j := by
  have := (waitLoop_spec poll k 0 2 (countOk_init poll) (by simp)).1
  simpa [waitComplete] using this

/-- C48: the only exception is for a later reply without the register. -/
theorem C48_keyError (poll : Nat → Option Reply) (k n : Nat) :
    waitComplete poll k = some (.keyError n) ↔
      n < k ∧ (∃ r, Later poll n r ∧ r.complete = none) ∧ ∀ j < n, ¬ Ends poll j := by
  have := (waitLoop_spec poll k 0 2 (countOk_init poll) (by simp)).2.2 n
  simpa [waitComplete] using this

/-- C48: if every reply carries the register (the query always asks for it,
see `C48_query`), the call returns at the first complete reply after an
earlier one. -/
theorem C48_first (poll : Nat → Option Reply) (hreg : ∀ i r, poll i = some r → r.complete ≠ none)
    (n : Nat) (r : Reply) (hl : Later poll n r) (hr : r.complete ≠ some 0)
    (hmin : ∀ j < n, ∀ r', Later poll j r' → r'.complete = some 0) (k : Nat) (hk : n < k) :
    waitComplete poll k = some (.returned n r) := by
  rw [C48_returns]
  refine ⟨hk, hl, ?_, fun j hj => ?_⟩
  · cases h : r.complete with
    | none => exact absurd h (hreg n r hl.1)
    | some v => exact ⟨v, rfl, fun e => hr (by rw [h, e])⟩
  · rintro ⟨r', hl', h'⟩
    exact h' (hmin j hj r' hl')

open Commands Commands.Spec Multiplex Multiplex.Spec in
/-- C48: every position command sent by the loop (moteus.py:1024-1029) asks
for the register TRAJECTORY_COMPLETE, whatever the caller configured. -/
theorem C48_query (c : Controller) (hc : c.Constructed) (a : PositionArgs)
    (given : Option QueryResolution)
    (hq : QueryOk c (some (given.getD c.query_resolution)))
    (hd : Doubles (positionParams c.position_resolution a))
    (hil : a.ilimit_scale = none ∨ c.position_resolution.ilimit_scale = none ∨
      c.position_resolution.ilimit_scale = some .f32) (cmd : Command)
    (h : c.makePosition a true
      (some { given.getD c.query_resolution with trajectory_complete := some .int8 }) = .ok cmd) :
    ∃ l, accesses cmd.data = some l ∧ Access.read 0x00b .int8 ∈ l := by
  have := C11_position_partial c hc a true
    (some { given.getD c.query_resolution with trajectory_complete := some .int8 })
    ⟨hq.1, fun q e => by cases e; exact hq.2 (given.getD c.query_resolution) rfl⟩ hd hil
  rcases this with ⟨_, he⟩ | ⟨_, cmd', ws, he, _, _, _, _, ⟨reads, hr, hacc⟩, _⟩
  · rw [h] at he; cases he
  · rw [h] at he; cases he
    refine ⟨_, hacc, List.mem_append.2 (Or.inr ?_)⟩
    obtain ⟨regs, ⟨ex, _, rfl⟩, rfl⟩ := hr
    refine List.mem_map.2 ⟨(0x00b, .int8), List.mem_append.2 (Or.inl ?_), rfl⟩
    exact List.mem_filterMap.2 ⟨(0x00b, some .int8), by simp, rfl⟩

/-- A first reply that says complete is stale and not used; then a lost reply,
a reply that is not complete and one that is. -/
example : waitComplete (fun i => [some ⟨some 1⟩, none, some ⟨some 0⟩, some ⟨some 1⟩].getD i none) 9 =
    some (.returned 3 ⟨some 1⟩) := by decide

end Verif.Tool
