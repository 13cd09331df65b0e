import Mathlib.Data.List.Basic
import Mathlib.Logic.Function.Basic

/-!
# A serial port in coroutines: `AioSerial` (C115)

lib/python/moteus/posix_aioserial.py.  The event loop runs one thing at a time: the callback of the port
(`_handle_read`), or a call of `read` up to the point where it waits for `_read_event`.  Calls may overlap and
be cancelled.

Simplified: `_read_event` is represented by which calls it has woken; a call that finds it set without data
clears it and looks again, which ends in waiting.  A cancelled call gets `CancelledError` where it waits.
Sizes are not negative.  Not modelled: exceptions of the port, and `serial.write`, which is assumed to write
all it is given.
-/

namespace Verif.Aio.Serial

variable {β : Type}

/-! ## Model -/

inductive Phase
  | waiting | ready | done | failed | cancelled
  deriving DecidableEq

/-- A call of `read`: its arguments, `result`, and where it is. -/
structure Call (β : Type) where
  size : ℕ
  block : Bool
  got : List β
  phase : Phase

/-- The loop of `read` (lines 70-86) from its start until it waits, returns, or fails in the `assert` (line 79):
`_read_data`, `result` and where it is. -/
def loop (size : ℕ) (block : Bool) (data got : List β) : List β × List β × Phase :=
  if _h : data = [] then (data, got, .waiting)
  else
    let n := min (size - got.length) data.length
    if _hn : n = 0 then (data, got, .failed)
    else if block = false ∨ (got ++ data.take n).length = size then (data.drop n, got ++ data.take n, .done)
    else loop size block (data.drop n) (got ++ data.take n)
termination_by data.length
decreasing_by
  have : 0 < data.length := List.length_pos_iff.2 _h
  simp only [List.length_drop]
  omega

/-- `data` is `_read_data`, `pending` is `_write_data`; `arrived` and `sent` are what went over the line, `log` is
who took what in which order. -/
structure St (β : Type) where
  data : List β := []
  calls : ℕ → Option (Call β) := fun _ => none
  pending : List β := []
  arrived : List β := []
  sent : List β := []
  written : List β := []
  log : List (ℕ × List β) := []

inductive Ev (β : Type)
  /-- `_handle_read` (lines 98-100) -/
  | arrive (bs : List β)
  /-- `read(size, block)` is called -/
  | start (id size : ℕ) (block : Bool)
  /-- a call that was woken goes on -/
  | resume (id : ℕ)
  | cancel (id : ℕ)
  /-- `write` (lines 88-89) -/
  | write (bs : List β)
  /-- `drain` (lines 91-93) -/
  | drain

/-- `_read_event.set()` -/
def wake (c : Call β) : Call β := if c.phase = .waiting then { c with phase := .ready } else c

def run (s : St β) (id : ℕ) (c : Call β) : St β :=
  let r := loop c.size c.block s.data c.got
  { s with
    data := r.1
    calls := Function.update s.calls id (some { c with got := r.2.1, phase := r.2.2 })
    log := s.log ++ [(id, r.2.1.drop c.got.length)] }

def step (s : St β) : Ev β → St β
  | .arrive bs => { s with data := s.data ++ bs, arrived := s.arrived ++ bs, calls := fun i => (s.calls i).map wake }
  | .start id size block => match s.calls id with
    | some _ => s
    | none => run s id ⟨size, block, [], .ready⟩
  | .resume id => match s.calls id with
    | some c => if c.phase = .ready then run s id c else s
    | none => s
  | .cancel id => match s.calls id with
    | some c =>
      if c.phase = .ready ∨ c.phase = .waiting then
        { s with calls := Function.update s.calls id (some { c with phase := .cancelled }) }
      else s
    | none => s
  | .write bs => { s with pending := s.pending ++ bs, written := s.written ++ bs }
  | .drain => { s with pending := [], sent := s.sent ++ s.pending }

def runs (es : List (Ev β)) : St β := es.foldl step {}

/-! ## Specification -/

/-- what a call took according to the log. -/
def took (log : List (ℕ × List β)) (id : ℕ) : List β := ((log.filter fun p => p.1 = id).map Prod.snd).flatten

/-! ## Proofs -/

private theorem loop_eq (size : ℕ) (block : Bool) (data got : List β) :
    loop size block data got =
      if data = [] then (data, got, .waiting)
      else if size ≤ got.length then (data, got, .failed)
      else if block = false ∨ size - got.length ≤ data.length then
        (data.drop (size - got.length), got ++ data.take (size - got.length), .done)
      else ([], got ++ data, .waiting) := by
  rw [loop.eq_def]
  by_cases h : data = []
  · simp [h]
  have hl : 0 < data.length := List.length_pos_iff.2 h
  rw [dif_neg h, if_neg h]
  by_cases hs : size ≤ got.length
  · rw [if_pos hs]
    simp only
    rw [dif_pos (by omega)]
  rw [if_neg hs]
  simp only
  rw [dif_neg (by omega)]
  by_cases hd : size - got.length ≤ data.length
  · have e : min (size - got.length) data.length = size - got.length := by omega
    rw [e, if_pos (.inr (by simp; omega)), if_pos (.inr hd)]
  · have e : min (size - got.length) data.length = data.length := by omega
    rw [e]
    have t1 : data.take (size - got.length) = data := List.take_of_length_le (by omega)
    have d1 : data.drop (size - got.length) = [] := List.drop_of_length_le (by omega)
    rw [List.take_length, List.drop_length, t1, d1]
    by_cases hb : block = false
    · simp [hb]
    · have q1 : ¬ (block = false ∨ (got ++ data).length = size) := by
        rintro (q | q)
        · exact hb q
        · rw [List.length_append] at q
          omega
      have q2 : ¬ (block = false ∨ size - got.length ≤ data.length) := by
        rintro (q | q)
        · exact hb q
        · exact hd q
      rw [if_neg q1, if_neg q2, loop.eq_def]
      simp

/-- what one run of the loop does to the bytes. -/
private theorem loop_bytes (size : ℕ) (block : Bool) (data got : List β) :
    ∃ x, (loop size block data got).2.1 = got ++ x ∧ x ++ (loop size block data got).1 = data := by
  rw [loop_eq]
  split_ifs
  · exact ⟨[], by simp, by simp⟩
  · exact ⟨[], by simp, by simp⟩
  · exact ⟨_, rfl, List.take_append_drop _ _⟩
  · exact ⟨data, rfl, by simp⟩

/-- what holds of a call. -/
private def Good (c : Call β) : Prop :=
  (c.phase = .done → (c.block = true → c.got.length = c.size) ∧ 1 ≤ c.got.length ∧ c.got.length ≤ c.size) ∧
  (c.phase = .ready ∨ c.phase = .waiting → c.got = [] ∨ c.block = true ∧ c.got.length < c.size) ∧
  (c.phase = .cancelled → c.got = [] ∨ c.block = true ∧ c.got.length < c.size) ∧
  (c.phase = .failed → c.size = 0)

private def Inv (s : St β) : Prop :=
  (s.log.map Prod.snd).flatten ++ s.data = s.arrived ∧
  (∀ id c, s.calls id = some c → c.got = took s.log id ∧ Good c) ∧
  (∀ id, s.calls id = none → took s.log id = []) ∧
  (s.data ≠ [] → ∀ id c, s.calls id = some c → c.phase ≠ .waiting) ∧
  s.sent ++ s.pending = s.written

private theorem took_append (log : List (ℕ × List β)) (j : ℕ) (x : List β) (id : ℕ) :
    took (log ++ [(j, x)]) id = took log id ++ if j = id then x else [] := by
  unfold took
  by_cases h : j = id <;> simp [h]

private theorem run_inv {s : St β} (h : Inv s) (id : ℕ) (c : Call β) (hc : c.phase = .ready) (hg : Good c)
    (ht : c.got = took s.log id) : Inv (run s id c) := by
  obtain ⟨h1, h2, h3, h4, h5⟩ := h
  obtain ⟨x, e1, e2⟩ := loop_bytes c.size c.block s.data c.got
  have ed : (loop c.size c.block s.data c.got).2.1.drop c.got.length = x := by rw [e1]; simp
  refine ⟨?_, ?_, ?_, ?_, h5⟩
  · simp only [run, ed]
    rw [List.map_append, List.flatten_append, ← h1, List.append_assoc]
    congr 1
    simpa using e2
  · intro j d hd
    simp only [run, ed] at hd ⊢
    by_cases hj : j = id
    · subst hj
      rw [Function.update_self, Option.some.injEq] at hd
      subst hd
      refine ⟨?_, ?_⟩
      · rw [took_append, if_pos rfl, ← ht]
        exact e1
      · have hr := hg.2.1 (.inl hc)
        simp only [Good]
        rw [loop_eq]
        by_cases q1 : s.data = []
        · simp only [q1, if_true]
          refine ⟨fun h => by simp at h, fun _ => hr, fun h => by simp at h, fun h => by simp at h⟩
        by_cases q2 : c.size ≤ c.got.length
        · simp only [q1, q2, if_true, if_false]
          refine ⟨fun h => by simp at h, fun h => by simp at h, fun h => by simp at h, fun _ => ?_⟩
          rcases hr with hr | ⟨_, hr⟩
          · rw [hr] at q2
            simpa using q2
          · omega
        have hl : 0 < s.data.length := List.length_pos_iff.2 q1
        by_cases q3 : c.block = false ∨ c.size - c.got.length ≤ s.data.length
        · simp only [q1, q2, q3, if_true, if_false]
          refine ⟨fun _ => ⟨?_, ?_, ?_⟩, fun h => by simp at h, fun h => by simp at h, fun h => by simp at h⟩
          · intro hb
            have := q3.resolve_left (by simp [hb])
            rw [List.length_append, List.length_take]
            omega
          · rw [List.length_append, List.length_take]
            omega
          · rw [List.length_append, List.length_take]
            omega
        · simp only [q1, q2, q3, if_false]
          have q4 := not_or.1 q3
          refine ⟨fun h => by simp at h, fun _ => .inr ⟨by simpa using q4.1, ?_⟩, fun h => by simp at h, fun h => by simp at h⟩
          rw [List.length_append]
          omega
    · rw [Function.update_of_ne hj] at hd
      rw [took_append, if_neg (fun e => hj e.symm), List.append_nil]
      exact h2 j d hd
  · intro j hd
    simp only [run, ed] at hd ⊢
    by_cases hj : j = id
    · subst hj
      rw [Function.update_self] at hd
      cases hd
    · rw [Function.update_of_ne hj] at hd
      rw [took_append, if_neg (fun e => hj e.symm), List.append_nil]
      exact h3 j hd
  · intro hne j d hd
    simp only [run] at hne hd
    have hs : s.data ≠ [] := by
      intro q
      rw [loop_eq, if_pos q] at hne
      exact hne q
    by_cases hj : j = id
    · subst hj
      rw [Function.update_self, Option.some.injEq] at hd
      subst hd
      simp only
      rw [loop_eq] at hne ⊢
      rw [if_neg hs] at hne ⊢
      split_ifs at hne ⊢ <;> simp_all
    · rw [Function.update_of_ne hj] at hd
      exact h4 hs j d hd

private theorem step_inv {s : St β} (h : Inv s) (e : Ev β) : Inv (step s e) := by
  cases e with
  | arrive bs =>
    obtain ⟨h1, h2, h3, h4, h5⟩ := h
    refine ⟨by simp only [step]; rw [← List.append_assoc, h1], ?_, ?_, ?_, h5⟩
    · intro id c hc
      simp only [step] at hc
      obtain ⟨d, hd, rfl⟩ := Option.map_eq_some_iff.1 hc
      obtain ⟨g1, g2⟩ := h2 id d hd
      unfold wake
      split
      · rename_i hw
        refine ⟨g1, fun h => by simp at h, fun _ => g2.2.1 (.inr hw), fun h => by simp at h, fun h => by simp at h⟩
      · exact ⟨g1, g2⟩
    · intro id hc
      simp only [step, Option.map_eq_none_iff] at hc
      exact h3 id hc
    · intro _ id c hc
      simp only [step] at hc
      obtain ⟨d, hd, rfl⟩ := Option.map_eq_some_iff.1 hc
      unfold wake
      split
      · simp
      · assumption
  | start id size block =>
    simp only [step]
    cases hc : s.calls id with
    | some _ => exact h
    | none =>
      refine run_inv h id _ rfl ⟨fun h => by simp at h, fun _ => .inl rfl, fun h => by simp at h, fun h => by simp at h⟩ ?_
      exact (h.2.2.1 id hc).symm
  | resume id =>
    simp only [step]
    cases hc : s.calls id with
    | none => exact h
    | some c =>
      simp only
      split
      · rename_i hr
        obtain ⟨g1, g2⟩ := h.2.1 id c hc
        exact run_inv h id c hr g2 g1
      · exact h
  | cancel id =>
    simp only [step]
    cases hc : s.calls id with
    | none => exact h
    | some c =>
      simp only
      split
      · rename_i hr
        obtain ⟨h1, h2, h3, h4, h5⟩ := h
        refine ⟨h1, ?_, ?_, ?_, h5⟩
        · intro j d hd
          by_cases hj : j = id
          · subst hj
            simp only [Function.update_self, Option.some.injEq] at hd
            subst hd
            obtain ⟨g1, g2⟩ := h2 j c hc
            exact ⟨g1, fun h => by simp at h, fun h => by simp at h, fun _ => g2.2.1 hr, fun h => by simp at h⟩
          · simp only [Function.update_of_ne hj] at hd
            exact h2 j d hd
        · intro j hd
          by_cases hj : j = id
          · subst hj
            simp at hd
          · simp only [Function.update_of_ne hj] at hd
            exact h3 j hd
        · intro hne j d hd
          by_cases hj : j = id
          · subst hj
            simp only [Function.update_self, Option.some.injEq] at hd
            subst hd
            simp
          · simp only [Function.update_of_ne hj] at hd
            exact h4 hne j d hd
      · exact h
  | write bs =>
    obtain ⟨h1, h2, h3, h4, h5⟩ := h
    exact ⟨h1, h2, h3, h4, by simp only [step]; rw [← List.append_assoc, h5]⟩
  | drain =>
    obtain ⟨h1, h2, h3, h4, h5⟩ := h
    exact ⟨h1, h2, h3, h4, by simp only [step]; rw [List.append_nil, h5]⟩

private theorem runs_inv (es : List (Ev β)) : Inv (runs es) := by
  have key : ∀ (es : List (Ev β)) (s : St β), Inv s → Inv (es.foldl step s) := by
    intro es
    induction es with
    | nil => intro s h; exact h
    | cons e es ih => intro s h; exact ih _ (step_inv h e)
  refine key es {} ⟨rfl, ?_, fun _ _ => rfl, ?_, rfl⟩
  · intro id c h
    cases h
  · intro h
    exact absurd rfl h

/-- **C115, bytes.** What was taken, in the order in which it was taken, and what waits in the buffer are together exactly what arrived;
and the result of each call is what it took: nothing is lost in between, repeated or exchanged, however calls overlap. -/
theorem C115_bytes (es : List (Ev β)) :
    ((runs es).log.map Prod.snd).flatten ++ (runs es).data = (runs es).arrived ∧
    ∀ id c, (runs es).calls id = some c → c.got = took (runs es).log id :=
  ⟨(runs_inv es).1, fun id c h => ((runs_inv es).2.1 id c h).1⟩

/-- **C115, sizes.** A call that returns has exactly as many bytes as asked for if it blocks, else at least one and not more than that. -/
theorem C115_size (es : List (Ev β)) (id : ℕ) (c : Call β) (h : (runs es).calls id = some c) (hd : c.phase = .done) :
    (c.block = true → c.got.length = c.size) ∧ 1 ≤ c.got.length ∧ c.got.length ≤ c.size :=
  ((runs_inv es).2.1 id c h).2.1 hd

/-- **C115, no call sleeps** while there are bytes in the buffer. -/
theorem C115_awake (es : List (Ev β)) (h : (runs es).data ≠ []) (id : ℕ) (c : Call β) (hc : (runs es).calls id = some c) :
    c.phase ≠ .waiting :=
  (runs_inv es).2.2.2.1 h id c hc

/-- **C115, calls return** when they go on and there are enough bytes, at least one if they do not block, and take no more than they need. -/
theorem C115_returns (es : List (Ev β)) (id : ℕ) (c : Call β) (hc : (runs es).calls id = some c) (hr : c.phase = .ready)
    (hs : c.got.length < c.size) (hd : (runs es).data ≠ []) (he : c.block = false ∨ c.size ≤ c.got.length + (runs es).data.length) :
    (runs (es ++ [.resume id])).calls id = some
      { c with phase := .done, got := c.got ++ (runs es).data.take (c.size - c.got.length) } ∧
    (runs (es ++ [.resume id])).data = (runs es).data.drop (c.size - c.got.length) := by
  have e : runs (es ++ [.resume id]) = step (runs es) (.resume id) := by simp [runs]
  rw [e]
  simp only [step, hc, hr, if_true, run, Function.update_self]
  rw [loop_eq, if_neg hd, if_neg (by omega), if_pos (he.imp_right (by omega))]
  exact ⟨rfl, rfl⟩

/-- **C115, writing.** What `drain` has sent and what waits for it are together what was written, in order; after `drain` nothing waits. -/
theorem C115_write (es : List (Ev β)) :
    (runs es).sent ++ (runs es).pending = (runs es).written ∧ (runs (es ++ [.drain])).pending = [] ∧
    (runs (es ++ [.drain])).sent = (runs es).written := by
  have e : runs (es ++ [.drain]) = step (runs es) .drain := by simp [runs]
  refine ⟨(runs_inv es).2.2.2.2, by rw [e]; rfl, ?_⟩
  rw [e]
  exact (runs_inv es).2.2.2.2

/-- **C115, cancelled calls** that do not block, as those of the fdcanusb transport, have taken nothing. -/
theorem C115_cancel_partial (es : List (Ev β)) (id : ℕ) (c : Call β) (h : (runs es).calls id = some c) (hd : c.phase = .cancelled)
    (hb : c.block = false) : took (runs es).log id = [] := by
  obtain ⟨g1, g2⟩ := (runs_inv es).2.1 id c h
  rw [← g1]
  rcases g2.2.2.1 hd with h | ⟨h, -⟩
  · exact h
  · rw [hb] at h
    cases h

/-- the hypotheses: two calls that overlap, one that is cancelled. -/
example : (runs [Ev.start 0 3 true, .start 1 2 false, .arrive [7, 8], .resume 0, .resume 1, .arrive [9, 5]]).data = [9, 5] ∧
    ((runs [Ev.start 0 3 true, .start 1 2 false, .arrive [7, 8], .resume 0, .resume 1, .arrive [9, 5]]).calls 0).map
      (fun c => (c.got, c.phase)) = some ([7, 8], .ready) ∧
    ((runs [Ev.start 1 2 false, .cancel 1, Ev.arrive [7]]).calls 1).map (fun c => (c.block, c.phase)) =
      some (false, .cancelled) := by
  simp [runs, step, run, loop_eq, wake, Function.update]

/-- **C115 is violated by cancelling a call that blocks**: the bytes it had taken are gone; the next call gets the ones after them. -/
theorem C115_cancel_refuted :
    let s := runs [Ev.start 0 5 true, .arrive [1, 2, 3], .resume 0, .cancel 0, .start 1 2 true, .arrive [4, 5], .resume 1]
    (s.calls 0).map Call.phase = some .cancelled ∧ (s.calls 1).map (fun c => (c.got, c.phase)) = some ([4, 5], .done) ∧
    s.arrived = [1, 2, 3, 4, 5] ∧ s.data = [] := by
  simp [runs, step, run, loop_eq, wake, Function.update]

/-- **C115 is violated by `read(0)`**: it does not return an empty result but fails once there is a byte, and waits for that. -/
theorem C115_zero_refuted (b : β) (bs : List β) (block : Bool) :
    ((runs [Ev.start 0 0 block, .arrive (b :: bs)] : St β).calls 0).map Call.phase = some .ready ∧
    ((runs [Ev.start 0 0 block, .arrive (b :: bs), .resume 0] : St β).calls 0).map Call.phase = some .failed := by
  simp [runs, step, run, loop_eq, wake, Function.update]

end Verif.Aio.Serial
