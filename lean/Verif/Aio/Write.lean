import Verif.Aio.Model
import Mathlib.Tactic

/-!
# `AioStream.write` and `AioStream.drain` (C79)

Model of `lib/python/moteus/aiostream.py:91-113`, in the style of `Verif.Aio.Model`.  The bytes given to
`write` are numbered.  `fd.write` is taken to write all of its argument, as that of pyserial does; the code
ignores its result (aiostream.py:104).
-/

namespace Verif.Aio

open Relation

/-- A call of `drain` (aiostream.py:94-113): the data it took, where it is, and the variable `skip`.
`mark` is not in the code: how many bytes had been given to `write` when it was called. -/
structure Drain where
  data : List ℕ
  phase : Phase := .waiting
  skip : Bool := false
  mark : ℕ

/-- The state: how many bytes were given to `write`, those in `_write_data`, those that reached the file,
the queue `_write_queue`, the call for which the worker is inside of `fd.write`, the results on the way to
the main thread, and all calls of `drain` so far. -/
structure Writes where
  given : ℕ
  buf : List ℕ
  out : List ℕ
  queue : List ℕ
  worker : Option ℕ
  posted : List ℕ
  next : ℕ
  drains : ℕ → Drain

/-- At the beginning. -/
def Writes.init : Writes := ⟨0, [], [], [], none, [], 0, fun _ => ⟨[], .finished, false, 0⟩⟩

/-- Replace the record of a call. -/
def Writes.set (s : Writes) (c : ℕ) (x : Drain) : Writes :=
  { s with drains := Function.update s.drains c x }

/-- The steps.  With `calm` no call is cancelled. -/
inductive WStep (calm : Bool) : Writes → Writes → Prop
  /-- `write` with `n` bytes (aiostream.py:91-92). -/
  | write (s : Writes) (n : ℕ) :
      WStep calm s { s with given := s.given + n, buf := s.buf ++ List.range' s.given n }
  /-- `drain` takes the data and queues a job (aiostream.py:94-107). -/
  | drain (s : Writes) :
      WStep calm s { (s.set s.next ⟨s.buf, .waiting, false, s.given⟩) with
        buf := [], next := s.next + 1, queue := s.queue ++ [s.next] }
  /-- The worker takes a job whose call was cancelled (aiostream.py:36-37, 101-103). -/
  | pass (s : Writes) (c : ℕ) (q : List ℕ) (hw : s.worker = none) (hq : s.queue = c :: q)
      (hs : (s.drains c).skip = true) : WStep calm s { s with queue := q }
  /-- The worker takes a job and enters `fd.write` (aiostream.py:36-37, 101-104). -/
  | take (s : Writes) (c : ℕ) (q : List ℕ) (hw : s.worker = none) (hq : s.queue = c :: q)
      (hs : (s.drains c).skip = false) : WStep calm s { s with queue := q, worker := some c }
  /-- `fd.write` returns (aiostream.py:104-105). -/
  | finish (s : Writes) (c : ℕ) (hw : s.worker = some c) :
      WStep calm s { s with
        worker := none, out := s.out ++ (s.drains c).data, posted := s.posted ++ [c] }
  /-- `_async_set_future` (aiostream.py:24-28): the call continues unless it was cancelled. -/
  | deliver (s : Writes) (c : ℕ) (p : List ℕ) (hp : s.posted = c :: p)
      (hc : (s.drains c).phase = .waiting) :
      WStep calm s { (s.set c { s.drains c with phase := .finished }) with posted := p }
  /-- `_async_set_future` with a future that was cancelled (aiostream.py:25-27). -/
  | lose (s : Writes) (c : ℕ) (p : List ℕ) (hp : s.posted = c :: p)
      (hc : (s.drains c).phase ≠ .waiting) : WStep calm s { s with posted := p }
  /-- The coroutine is cancelled in `await f` (aiostream.py:109-110). -/
  | cancel (s : Writes) (c : ℕ) (hn : calm = false) (hc : (s.drains c).phase = .waiting) :
      WStep calm s (s.set c { s.drains c with phase := .cancelling })
  /-- The handler has the lock (aiostream.py:111-113). -/
  | release (s : Writes) (c : ℕ) (hn : calm = false) (hc : (s.drains c).phase = .cancelling)
      (hw : s.worker = none) :
      WStep calm s (s.set c { s.drains c with phase := .cancelled, skip := true })

/-- The states that can be reached. -/
def WReach (calm : Bool) (s : Writes) : Prop := ReflTransGen (WStep calm) Writes.init s

/-- The data of jobs that are not done, in the order in which the worker will come to them. -/
def undone (s : Writes) : List ℕ := (s.worker.toList ++ s.queue).flatMap fun c => (s.drains c).data

/-- What holds in every state. -/
structure WInv (calm : Bool) (s : Writes) : Prop where
  lt : ∀ c, c ∈ s.queue ∨ s.worker = some c ∨ c ∈ s.posted → c < s.next
  sorted : (s.out ++ undone s ++ s.buf).Pairwise (· < ·)
  bound : ∀ x ∈ s.out ++ undone s ++ s.buf, x < s.given
  all : calm = true → s.out ++ undone s ++ s.buf = List.range s.given
  calmPhase : calm = true → ∀ c, (s.drains c).skip = false
  fresh : ∀ c, s.next ≤ c → (s.drains c).phase = .finished
  done : ∀ c, c ∈ s.posted ∨ (s.drains c).phase = .finished → ∀ x ∈ (s.drains c).data, x ∈ s.out
  marks : calm = true → ∀ c, c ∈ s.posted ∨ (s.drains c).phase = .finished → (s.drains c).mark ≤ s.out.length
  ahead : calm = true → ∀ p c q, s.worker.toList ++ s.queue = p ++ c :: q →
    (s.drains c).mark = s.out.length + ((p ++ [c]).flatMap fun i => (s.drains i).data).length

theorem WInv.init (calm : Bool) : WInv calm Writes.init := by
  constructor <;> simp [Writes.init, undone]

theorem flatMap_set (l : List ℕ) (f : ℕ → Drain) (c : ℕ) (x : Drain) (h : c ∈ l → x.data = (f c).data) :
    (l.flatMap fun i => (Function.update f c x i).data) = l.flatMap fun i => (f i).data := by
  refine List.flatMap_congr fun i hi => ?_
  by_cases hic : i = c
  · subst hic; simp [h hi]
  · simp [Function.update_apply, hic]

theorem undone_set (s : Writes) (c : ℕ) (x : Drain) (h : x.data = (s.drains c).data) :
    undone (s.set c x) = undone s := flatMap_set _ _ _ _ fun _ => h

/-- A step that changes only the phase of a call. -/
theorem WInv.change {calm : Bool} {s : Writes} (hi : WInv calm s) (c : ℕ) (x : Drain)
    (hc : c < s.next) (hd : x.data = (s.drains c).data) (hm : x.mark = (s.drains c).mark)
    (hk : calm = true → x.skip = false)
    (hf : x.phase = .finished → c ∈ s.posted ∨ (s.drains c).phase = .finished) : WInv calm (s.set c x) := by
  obtain ⟨w1, w2, w3, w4, w5, w6, w7, w8, w9⟩ := hi
  have hu := undone_set s c x hd
  refine ⟨w1, by rw [hu]; exact w2, by rw [hu]; exact w3, by rw [hu]; exact w4, fun h i => ?_, fun i h => ?_,
    fun i h => ?_, fun h i hh => ?_, fun h p i q e => ?_⟩
  · by_cases hic : i = c
    · subst hic; simpa [Writes.set] using hk h
    · simpa [Writes.set, Function.update_apply, hic] using w5 h i
  · have hic : i ≠ c := by simp only [Writes.set] at h; omega
    simpa [Writes.set, Function.update_apply, hic] using w6 i h
  · by_cases hic : i = c
    · subst hic
      simp only [Writes.set, Function.update_self, hd] at h ⊢
      exact w7 i (h.elim .inl hf)
    · simp only [Writes.set, Function.update_apply, hic, if_false] at h ⊢
      exact w7 i h
  · by_cases hic : i = c
    · subst hic
      simp only [Writes.set, Function.update_self, hm] at hh ⊢
      exact w8 h i (hh.elim .inl hf)
    · simp only [Writes.set, Function.update_apply, hic, if_false] at hh ⊢
      exact w8 h i hh
  · have e' := w9 h p i q e
    have e2 : ((s.set c x).drains i).mark = (s.drains i).mark := by
      by_cases hic : i = c
      · subst hic; simp [Writes.set, hm]
      · simp [Writes.set, Function.update_apply, hic]
    have e3 : ((p ++ [i]).flatMap fun j => ((s.set c x).drains j).data) =
        (p ++ [i]).flatMap fun j => (s.drains j).data := flatMap_set _ _ _ _ fun _ => hd
    rw [e2, e3]
    exact e'

theorem WInv.fewer {calm : Bool} {s : Writes} (hi : WInv calm s) (c : ℕ) (p : List ℕ)
    (hp : s.posted = c :: p) : WInv calm { s with posted := p } := by
  obtain ⟨w1, w2, w3, w4, w5, w6, w7, w8, w9⟩ := hi
  refine ⟨fun i h => w1 i ?_, w2, w3, w4, w5, w6, fun i h => w7 i ?_, fun h i hh => w8 h i ?_, w9⟩
  · rw [hp]; simp only [List.mem_cons] at h ⊢; tauto
  · rw [hp]; simp only [List.mem_cons] at h ⊢; tauto
  · rw [hp]; simp only [List.mem_cons] at hh ⊢; tauto

theorem WInv.step {calm : Bool} {s t : Writes} (hi : WInv calm s) (hs : WStep calm s t) : WInv calm t := by
  cases hs with
  | write n =>
    obtain ⟨w1, w2, w3, w4, w5, w6, w7, w8, w9⟩ := hi
    have hu : undone { s with given := s.given + n, buf := s.buf ++ List.range' s.given n } = undone s := rfl
    refine ⟨w1, ?_, ?_, fun h => ?_, w5, w6, w7, w8, w9⟩
    · rw [hu, ← List.append_assoc]
      refine List.pairwise_append.2 ⟨w2, List.pairwise_lt_range', fun x hx y hy => ?_⟩
      have := w3 x hx
      have := (List.mem_range'_1.1 hy).1
      omega
    · rw [hu, ← List.append_assoc]
      intro x hx
      rcases List.mem_append.1 hx with hx | hx
      · have := w3 x hx; simp only; omega
      · have := (List.mem_range'_1.1 hx).2; simpa using this
    · rw [hu, ← List.append_assoc, w4 h, List.range_eq_range', List.range_eq_range',
        ← List.range'_append (s := 0) (m := s.given) (n := n) (step := 1)]
      simp
  | drain =>
    have hold := hi
    obtain ⟨w1, w2, w3, w4, w5, w6, w7, w8, w9⟩ := hi
    have hj : s.next ∉ s.worker.toList ++ s.queue := fun hm => by
      have : s.next < s.next := w1 _ (by
        rcases List.mem_append.1 hm with h | h
        · exact .inr (.inl (by simpa using h))
        · exact .inl h)
      omega
    have hpn : s.next ∉ s.posted := fun hm => by have := w1 _ (.inr (.inr hm)); omega
    have hu : undone { (s.set s.next ⟨s.buf, .waiting, false, s.given⟩) with
        buf := [], next := s.next + 1, queue := s.queue ++ [s.next] } = undone s ++ s.buf := by
      unfold undone
      simp only [Writes.set]
      rw [← List.append_assoc, List.flatMap_append, flatMap_set _ _ _ _ (fun h => absurd h hj)]
      simp
    refine ⟨fun i h => ?_, ?_, ?_, fun h => ?_, fun h i => ?_, fun i h => ?_, fun i h => ?_, fun h i hh => ?_,
      fun h p i q e => ?_⟩
    · simp only [List.mem_append, List.mem_singleton] at h
      rcases h with (h | rfl) | h | h
      · have := w1 i (.inl h); simp only; omega
      · simp
      · have := w1 i (.inr (.inl h)); simp only; omega
      · have := w1 i (.inr (.inr h)); simp only; omega
    · rw [hu]; simpa [List.append_assoc, Writes.set] using w2
    · rw [hu]; simpa [List.append_assoc, Writes.set] using w3
    · rw [hu]; simpa [List.append_assoc, Writes.set] using w4 h
    · by_cases hic : i = s.next
      · subst hic; simp [Writes.set]
      · simpa [Writes.set, Function.update_apply, hic] using w5 h i
    · have hic : i ≠ s.next := by simp only at h; omega
      simpa [Writes.set, Function.update_apply, hic] using w6 i (by simp only at h; omega)
    · by_cases hic : i = s.next
      · subst hic; simp [Writes.set, hpn] at h
      · simp only [Writes.set, Function.update_apply, hic, if_false] at h ⊢
        exact w7 i h
    · by_cases hic : i = s.next
      · subst hic; simp [Writes.set, hpn] at hh
      · simp only [Writes.set, Function.update_apply, hic, if_false] at hh ⊢
        exact w8 h i hh
    · simp only [Writes.set, ← List.append_assoc] at e ⊢
      rcases List.eq_nil_or_concat q with rfl | ⟨q', z, rfl⟩
      · have e' := List.append_inj' e rfl
        obtain ⟨rfl, hz⟩ := e'
        obtain rfl : s.next = i := by simpa using hz
        have := congrArg List.length (w4 h)
        rw [List.flatMap_append, flatMap_set _ _ _ _ (fun h => absurd h hj)]
        simp [undone] at this ⊢
        omega
      · have e2 : s.worker.toList ++ s.queue ++ [s.next] = (p ++ i :: q') ++ [z] := by rw [e]; simp
        have e3 := List.append_inj' e2 rfl
        have hin : i ∈ s.worker.toList ++ s.queue := by rw [e3.1]; simp
        have hine : i ≠ s.next := fun hx => hj (hx ▸ hin)
        have := w9 h p i q' e3.1
        rw [flatMap_set _ _ _ _ (fun hm => absurd (by
          rw [e3.1]; simp only [List.mem_append, List.mem_singleton, List.mem_cons] at hm ⊢; tauto) hj)]
        simpa [Function.update_apply, hine] using this
  | pass c q hw hq hs =>
    obtain ⟨w1, w2, w3, w4, w5, w6, w7, w8, w9⟩ := hi
    have hn : calm ≠ true := fun h => by rw [w5 h c] at hs; simp at hs
    have hsub : (s.out ++ undone { s with queue := q } ++ s.buf).Sublist (s.out ++ undone s ++ s.buf) := by
      refine List.Sublist.append (List.Sublist.append (List.Sublist.refl _) ?_) (List.Sublist.refl _)
      unfold undone
      rw [hw, hq]
      simp
    exact ⟨fun i h => w1 i (by rw [hq]; simp only [List.mem_cons] at h ⊢; tauto), w2.sublist hsub,
      fun x hx => w3 x (hsub.subset hx), fun h => absurd h hn, w5, w6, w7, fun h => absurd h hn,
      fun h => absurd h hn⟩
  | take c q hw hq hs =>
    obtain ⟨w1, w2, w3, w4, w5, w6, w7, w8, w9⟩ := hi
    have hj : (some c).toList ++ q = s.worker.toList ++ s.queue := by simp [hw, hq]
    have hu : undone { s with queue := q, worker := some c } = undone s := by
      unfold undone; rw [← hj]
    refine ⟨fun i h => w1 i ?_, by rw [hu]; exact w2, by rw [hu]; exact w3, by rw [hu]; exact w4, w5, w6, w7, w8,
      fun h p i r e => w9 h p i r (hj ▸ e)⟩
    rw [hq]; simp only [List.mem_cons, Option.some.injEq] at h ⊢; tauto
  | finish c hw =>
    obtain ⟨w1, w2, w3, w4, w5, w6, w7, w8, w9⟩ := hi
    have hu : undone s = (s.drains c).data ++ undone { s with
        worker := none, out := s.out ++ (s.drains c).data, posted := s.posted ++ [c] } := by
      unfold undone; simp [hw]
    rw [hu, ← List.append_assoc] at w2 w3 w4
    refine ⟨fun i h => w1 i ?_, w2, w3, w4, w5, w6, fun i h x hx => ?_, fun h i hh => ?_, fun h p i q e => ?_⟩
    · simp only [List.mem_append, List.mem_singleton] at h
      rcases h with h | h | h | rfl
      · exact .inl h
      · simp at h
      · exact .inr (.inr h)
      · exact .inr (.inl hw)
    · simp only [List.mem_append, List.mem_singleton] at h ⊢
      rcases h with (h | rfl) | h
      · exact .inl (w7 i (.inl h) x hx)
      · exact .inr hx
      · exact .inl (w7 i (.inr h) x hx)
    · simp only [List.mem_append, List.mem_singleton, List.length_append] at hh ⊢
      rcases hh with (hh | rfl) | hh
      · have := w8 h i (.inl hh); omega
      · have := w9 h [] i s.queue (by simp [hw])
        simp at this
        omega
      · have := w8 h i (.inr hh); omega
    · have := w9 h (c :: p) i q (by simp at e; simp [hw, e])
      simp at this ⊢
      omega
  | deliver c p hp hc =>
    have h1 := hi.change c { s.drains c with phase := .finished } (hi.lt c (.inr (.inr (by simp [hp])))) rfl rfl
      (fun h => hi.calmPhase h c) (fun _ => .inl (by simp [hp]))
    exact h1.fewer c p hp
  | lose c p hp hc => exact hi.fewer c p hp
  | cancel c hn hc =>
    have : c < s.next := by
      by_contra hx; have := hi.fresh c (by omega); simp [hc] at this
    exact hi.change c _ this rfl rfl (fun h => by simp [hn] at h) (fun h => by simp at h)
  | release c hn hc hw =>
    have : c < s.next := by
      by_contra hx; have := hi.fresh c (by omega); simp [hc] at this
    exact hi.change c _ this rfl rfl (fun h => by simp [hn] at h) (fun h => by simp at h)

theorem WInv.reach {calm : Bool} {s : Writes} (h : WReach calm s) : WInv calm s := by
  induction h with
  | refl => exact WInv.init calm
  | tail _ hs ih => exact ih.step hs

/-- **C79, writing.**  As long as no `drain` is cancelled, the bytes that reach the file are those given to
`write`, in order and without gap, and a `drain` that has returned has brought all bytes out that had been
given before it was called.  In any case no byte is written twice or before one that was given earlier, and
a `drain` that has returned has written what it took. -/
theorem C79_write_partial {calm : Bool} {s : Writes} (h : WReach calm s) :
    s.out.Pairwise (· < ·) ∧ (∀ x ∈ s.out, x < s.given) ∧
    (∀ c, c < s.next → (s.drains c).phase = .finished → ∀ x ∈ (s.drains c).data, x ∈ s.out) ∧
    (calm = true → s.out = List.range s.out.length ∧
      ∀ c, c < s.next → (s.drains c).phase = .finished → (s.drains c).mark ≤ s.out.length) := by
  have hi := WInv.reach h
  refine ⟨?_, fun x hx => hi.bound x (by simp [hx]), fun c _ hf => hi.done c (.inr hf), fun hc =>
    ⟨?_, fun c _ hf => hi.marks hc c (.inr hf)⟩⟩
  · have := hi.sorted
    rw [List.append_assoc] at this
    exact (List.pairwise_append.1 this).1
  · have hall := hi.all hc
    rw [List.append_assoc] at hall
    have hpre : s.out <+: List.range s.given := ⟨_, hall⟩
    have hle := hpre.length_le
    rw [List.prefix_iff_eq_take] at hpre
    rw [List.length_range] at hle
    conv_lhs => rw [hpre]
    rw [List.take_range, min_eq_left hle]

theorem WReach.go {calm : Bool} {s t : Writes} (h : WReach calm s) (hs : WStep calm s t) : WReach calm t :=
  ReflTransGen.tail h hs

/-- **C79, refuted when a `drain` is cancelled.**  A `drain` that is cancelled before the worker comes to it
has taken the data out of the buffer: here the first byte never reaches the file, although a later `drain`
has returned. -/
theorem C79_drain_refuted : ∃ s, WReach false s ∧ (s.drains 1).phase = .finished ∧
    (s.drains 1).mark = 2 ∧ s.next = 2 ∧ s.queue = [] ∧ s.buf = [] ∧ s.out = [1] := by
  have h0 : WReach false Writes.init := ReflTransGen.refl
  have h1 := h0.go (.write _ 1)
  have h2 := h1.go (.drain _)
  have h3 := h2.go (.cancel _ 0 rfl (by simp [Writes.set, Writes.init]))
  have h4 := h3.go (.release _ 0 rfl (by simp [Writes.set, Writes.init]) rfl)
  have h5 := h4.go (.pass _ 0 [] rfl rfl (by simp [Writes.set, Writes.init]))
  have h6 := h5.go (.write _ 1)
  have h7 := h6.go (.drain _)
  have h8 := h7.go (.take _ 1 [] rfl rfl (by simp [Writes.set, Writes.init]))
  have h9 := h8.go (.finish _ 1 rfl)
  have h10 := h9.go (.deliver _ 1 [] rfl (by simp [Writes.set, Writes.init]))
  exact ⟨_, h10, by simp [Writes.set], by simp [Writes.set, Writes.init], rfl, rfl, rfl,
    by simp [Writes.set, Writes.init]⟩

example : ∃ s, WReach true s ∧ s.next = 1 ∧ (s.drains 0).phase = .finished ∧ s.out = [0, 1] := by
  have h0 : WReach true Writes.init := ReflTransGen.refl
  have h1 := h0.go (.write _ 2)
  have h2 := h1.go (.drain _)
  have h3 := h2.go (.take _ 0 [] rfl rfl (by simp [Writes.set, Writes.init]))
  have h4 := h3.go (.finish _ 0 rfl)
  have h5 := h4.go (.deliver _ 0 [] rfl (by simp [Writes.set, Writes.init]))
  exact ⟨_, h5, rfl, by simp [Writes.set], by simp [Writes.set, Writes.init, List.range']⟩

end Verif.Aio
