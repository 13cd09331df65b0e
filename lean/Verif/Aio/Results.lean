import Verif.Aio.Order

/-!
# What callers of `AioStream.read` see (C79)

The states here are those of `Verif.Aio.Model`; a call that has returned is described by `Returned`.
-/

namespace Verif.Aio

open Relation

/-- **C79, sizes.**  A call returns at most as many bytes as it was asked for, and with `block` exactly that
many, whatever else happens. -/
theorem C79_size {seq clean : Bool} {s : Reads} (h : Reach seq clean s) {c : ℕ} {l : List ℕ}
    (hr : Returned s c l) :
    l.length ≤ (s.calls c).size ∧ ((s.calls c).block = true → l.length = (s.calls c).size) := by
  obtain ⟨_, hf, rfl⟩ := hr
  have hi := Inv.reach h
  have := hi.len c
  refine ⟨by omega, fun hb => ?_⟩
  have := hi.all c hf hb
  omega

theorem held_le (s : Reads) {c : ℕ} (hc : c < s.next) : ((s.calls c).held : Multiset ℕ) ≤ heldBy s :=
  Finset.single_le_sum (f := fun c => ((s.calls c).held : Multiset ℕ)) (fun _ _ => Multiset.zero_le _)
    (Finset.mem_range.2 hc)

theorem held_pair_le (s : Reads) {i j : ℕ} (hi : i < s.next) (hj : j < s.next) (hne : i ≠ j) :
    ((s.calls i).held : Multiset ℕ) + ((s.calls j).held : Multiset ℕ) ≤ heldBy s := by
  rw [← Finset.sum_pair (f := fun c => ((s.calls c).held : Multiset ℕ)) hne]
  refine Finset.sum_le_sum_of_subset ?_
  intro x hx
  simp at hx
  rcases hx with rfl | rfl <;> simpa

/-- **C79, no byte twice.**  However calls overlap and are cancelled, no byte of the file is in two
results, or twice in one. -/
theorem C79_once {seq clean : Bool} {s : Reads} (h : Reach seq clean s) {i j : ℕ} {l m : List ℕ}
    (hl : Returned s i l) (hm : Returned s j m) : l.Nodup ∧ (i ≠ j → List.Disjoint l m) := by
  obtain ⟨hi, fi, rfl⟩ := hl
  obtain ⟨hj, fj, rfl⟩ := hm
  have hle := (Ledger.reach h).1
  have hall : heldBy s ≤ Multiset.range s.pos := (Multiset.le_add_right _ _).trans hle
  refine ⟨?_, fun hne => ?_⟩
  · have := Multiset.nodup_of_le ((held_le s hi).trans hall) (Multiset.nodup_range _)
    rw [held_finished _ fi] at this
    exact this
  · have := Multiset.nodup_of_le ((held_pair_le s hi hj hne).trans hall) (Multiset.nodup_range _)
    rw [held_finished _ fi, held_finished _ fj] at this
    have := Multiset.nodup_add.1 this
    exact fun a h1 h2 => (Multiset.disjoint_left.1 this.2.2) h1 h2

/-- **C79, nothing lost.**  If no call was cancelled, or only before the worker had started for it, then
every byte taken from the file is in a result as soon as all calls are over. -/
theorem C79_nothing_lost_partial {seq : Bool} {s : Reads} (h : Reach seq true s)
    (ho : ∀ c, c < s.next → (s.calls c).Over) {x : ℕ} (hx : x < s.pos) :
    ∃ c l, Returned s c l ∧ x ∈ l := by
  obtain ⟨_, l2, l3, l4⟩ := Ledger.reach h
  have hi := Inv.reach h
  have hp : s.posted = [] := by
    rcases hp : s.posted with _ | ⟨e, p⟩
    · rfl
    · have hm : e.1 ∈ s.posted.map Prod.fst := by simp [hp]
      have := ho e.1 (hi.lt _ (.inr (.inr hm)))
      simp [Call.Over, l4 rfl e.1 hm] at this
  have hx' : x ∈ heldBy s := by
    have := l2 rfl
    simp [onTheWay, hp] at this
    rw [this]; simpa using hx
  unfold heldBy at hx'
  rw [Multiset.mem_sum] at hx'
  obtain ⟨c, hc, hxc⟩ := hx'
  have hc := Finset.mem_range.1 hc
  rcases ho c hc with hf | hf
  · rw [held_finished _ hf] at hxc
    exact ⟨c, _, ⟨hc, hf, rfl⟩, hxc⟩
  · simp [Call.held, hf] at hxc

/-- **C79, order.**  If every call is made after the calls before it are over, then each result is a
contiguous piece of the file, and later calls return later pieces, even when calls are cancelled. -/
theorem C79_order_partial {clean : Bool} {s : Reads} (h : Reach true clean s) {i j : ℕ} {l m : List ℕ}
    (hl : Returned s i l) (hm : Returned s j m) :
    (∃ a, l = List.range' a l.length) ∧ (i < j → ∀ x ∈ l, ∀ y ∈ m, x < y) := by
  obtain ⟨hi, fi, rfl⟩ := hl
  obtain ⟨hj, fj, rfl⟩ := hm
  have hq := SeqInv.reach h
  obtain ⟨b, _, ht⟩ := hq.past i fi
  exact ⟨⟨_, ht.2⟩, fun hij x hx => (hq.order i j hij hj fi x hx).1⟩

/-- What a call has returned. -/
def result (x : Call) : List ℕ := if x.phase = .finished then x.acc else []

/-- **C79, the stream.**  If calls follow each other, and are cancelled only before the worker has started
for them, then the results put together are the file as far as it was read. -/
theorem C79_stream_partial {s : Reads} (h : Reach true true s) (ho : ∀ c, c < s.next → (s.calls c).Over) :
    (List.range s.next).flatMap (fun c => result (s.calls c)) = List.range s.pos := by
  have hq := SeqInv.reach h
  have hres : ∀ c x, x ∈ result (s.calls c) → (s.calls c).phase = .finished ∧ x ∈ (s.calls c).acc := by
    intro c x hx; unfold result at hx; split_ifs at hx with hf
    · exact ⟨hf, hx⟩
    · simp at hx
  have hsort : ((List.range s.next).flatMap (fun c => result (s.calls c))).Pairwise (· < ·) := by
    rw [List.pairwise_flatMap]
    refine ⟨fun c hc => ?_, ?_⟩
    · unfold result
      split_ifs with hf
      · obtain ⟨b, _, ht⟩ := hq.past c hf
        rw [ht.2]
        exact List.pairwise_lt_range' (s := b - (s.calls c).acc.length) (n := (s.calls c).acc.length)
      · exact List.Pairwise.nil
    · refine List.Pairwise.imp_of_mem ?_ (List.pairwise_lt_range (n := s.next))
      intro i j hi hj hij x hx y hy
      obtain ⟨fi, hx⟩ := hres i x hx
      obtain ⟨fj, hy⟩ := hres j y hy
      exact (hq.order i j hij (List.mem_range.1 hj) fi x hx).1 y hy
  refine List.Perm.eq_of_pairwise (le := (· < ·)) (fun a b _ _ h1 h2 => absurd h1 (not_lt.2 h2.le)) hsort
    (List.pairwise_lt_range) ?_
  refine (List.perm_ext_iff_of_nodup (hsort.imp fun h => h.ne) List.nodup_range).2 fun x => ?_
  rw [List.mem_range]
  constructor
  · intro hx
    obtain ⟨c, _, hx⟩ := List.mem_flatMap.1 hx
    obtain ⟨fc, hx⟩ := hres c x hx
    exact hq.below c fc x hx
  · intro hx
    obtain ⟨c, l, ⟨hc, hf, rfl⟩, hxl⟩ := C79_nothing_lost_partial h ho hx
    exact List.mem_flatMap.2 ⟨c, List.mem_range.2 hc, by simp [result, hf, hxl]⟩

/-- **C79, no deadlock.**  As long as a call is not over, the two threads can make a step that is neither a
new call nor a cancellation. -/
theorem C79_no_deadlock {seq clean : Bool} {s : Reads} (h : Reach seq clean s) {c : ℕ}
    (hc : ¬ (s.calls c).Over) :
    ∃ t, Step seq false s t ∧ t.next = s.next ∧ (s.worker = none → t.pos = s.pos) ∧
      ∀ x, (t.calls x).phase = .cancelling ∨ (t.calls x).phase = .cancelled → 
        (s.calls x).phase = .cancelling ∨ (s.calls x).phase = .cancelled := by
  have hi := Inv.reach h
  by_cases hw : s.worker = none
  swap
  · obtain ⟨w, hw⟩ := Option.ne_none_iff_exists'.1 hw
    exact ⟨_, .finish s w 0 hw (by omega), rfl, by simp [hw], fun x hx => hx⟩
  rcases hp : (s.calls c).phase with _ | d | _ | _ | _
  · rcases hi.known c hp with hq | hq | hq
    · rcases hqq : s.queue with _ | ⟨a, q⟩
      · simp [hqq] at hq
      · by_cases hs : (s.calls a).skip = true
        · exact ⟨_, .pass s a q hw hqq hs, rfl, fun _ => rfl, fun x hx => hx⟩
        · exact ⟨_, .take s a q hw hqq (by simpa using hs), rfl, fun _ => rfl, fun x hx => hx⟩
    · simp [hw] at hq
    · rcases hpp : s.posted with _ | ⟨⟨a, d⟩, p⟩
      · simp [hpp] at hq
      · by_cases ha : (s.calls a).phase = .waiting
        · refine ⟨_, .deliver s a d p hpp ha, rfl, fun _ => rfl, fun x hx => ?_⟩
          by_cases hxa : x = a <;> simp_all [Reads.set, Function.update_apply]
        · exact ⟨_, .lose s a d p hpp ha, rfl, fun _ => rfl, fun x hx => hx⟩
  · by_cases hf : ((s.calls c).resumed d).phase = .finished
    · refine ⟨_, .done s c d hp hf, rfl, fun _ => rfl, fun x hx => ?_⟩
      by_cases hxa : x = c <;> simp_all [Reads.set, Function.update_apply]
    · have hf' : ((s.calls c).resumed d).phase = .waiting := by
        unfold Call.resumed at hf ⊢; simp only at hf ⊢; split_ifs at hf ⊢ <;> simp_all
      refine ⟨_, .again s c d hp hf', rfl, fun _ => rfl, fun x hx => ?_⟩
      by_cases hxa : x = c <;> simp_all [Reads.set, Function.update_apply]
  · refine ⟨_, .release s c rfl hp hw, rfl, fun _ => rfl, fun x hx => ?_⟩
    by_cases hxa : x = c <;> simp_all [Reads.set, Function.update_apply]
  · simp [Call.Over, hp] at hc
  · simp [Call.Over, hp] at hc

/-! ## Concrete executions -/

/-- A call of `read(n, block)` that waits. -/
def callW (n : ℕ) (block : Bool) (acc : List ℕ) (rem : ℕ) : Call := ⟨n, block, acc, rem, .waiting, false⟩

/-- Records of at most two calls. -/
def two (a b : Call) : ℕ → Call := Function.update (Function.update Reads.init.calls 0 a) 1 b

/-- The record of one call. -/
def one (a : Call) : ℕ → Call := Function.update Reads.init.calls 0 a

theorem one_set (a b : Call) : Function.update (one a) 0 b = one b := by simp [one]
theorem two_set0 (a b x : Call) : Function.update (two a b) 0 x = two x b := by
  unfold two; rw [Function.update_comm (by decide)]; simp
theorem two_set1 (a b x : Call) : Function.update (two a b) 1 x = two a x := by simp [two]
theorem two_0 (a b : Call) : two a b 0 = a := by simp [two]
theorem two_1 (a b : Call) : two a b 1 = b := by simp [two]
theorem one_two (a b : Call) : Function.update (one a) 1 b = two a b := rfl

/-- `read(2)` has been called. -/
theorem reach_one (seq clean : Bool) (n : ℕ) (b : Bool) :
    Reach seq clean ⟨0, [0], none, [], 1, one (callW n b [] n)⟩ := by
  have := Step.start (seq := seq) (clean := clean) Reads.init n b (fun _ c hc => by simp [Reads.init] at hc)
  exact ReflTransGen.single this

theorem Reach.go {seq clean : Bool} {s t : Reads} (h : Reach seq clean s) (hs : Step seq clean s t) :
    Reach seq clean t := ReflTransGen.tail h hs

/-- The file was read for a call, and the result is on the way. -/
theorem reach_posted (seq clean : Bool) (n k : ℕ) (b : Bool) (hk : k ≤ n) :
    Reach seq clean ⟨k, [], none, [(0, List.range' 0 k)], 1, one (callW n b [] n)⟩ := by
  have h1 := (reach_one seq clean n b).go (.take _ 0 [] rfl rfl (by simp [one, callW]))
  have h2 := h1.go (.finish _ 0 k rfl (by simpa [one, callW] using hk))
  simpa using h2

/-- `CancelledError` was raised by the call. -/
def gone (x : Call) : Call := { x with phase := .cancelled, skip := true }

/-- **C79, refuted for calls that are cancelled later.**  A call that is cancelled while the worker reads
for it, or while the result is on the way, takes the bytes with it: here the first two bytes of the file
are in no result, and the next call returns the third. -/
theorem C79_cancel_refuted : ∃ s, Reach true false s ∧ (∀ c, c < s.next → (s.calls c).Over) ∧
    Returned s 1 [2] ∧ 0 < s.pos ∧ ∀ c l, Returned s c l → 0 ∉ l := by
  have h1 := (reach_posted true false 2 2 true le_rfl).go
    (.cancel _ 0 rfl (.inl (by simp [one, callW])))
  have h2 := h1.go (.release _ 0 rfl (by simp [Reads.set]) rfl)
  have h3 := h2.go (.lose _ 0 [0, 1] [] rfl (by simp [Reads.set]))
  have e3 : Reach true false ⟨2, [], none, [], 1, one (gone (callW 2 true [] 2))⟩ := by
    simpa [Reads.set, one, gone] using h3
  have h4 := e3.go (.start _ 1 true (fun _ c hc => by
    obtain rfl : c = 0 := by simp at hc; omega
    exact .inr (by simp [one, gone])))
  have e4 : Reach true false ⟨2, [1], none, [], 2, two (gone (callW 2 true [] 2)) (callW 1 true [] 1)⟩ := by
    simpa [Reads.set, one_two, callW] using h4
  have h5 := e4.go (.take _ 1 [] rfl rfl (by simp [two, callW]))
  have h6 := h5.go (.finish _ 1 1 rfl (by simp [two, callW]))
  have h7 := h6.go (.deliver _ 1 [2] [] rfl (by simp [two, callW]))
  have h8 := h7.go (.done _ 1 [2] (by simp [Reads.set]) (by simp [Reads.set, Call.resumed, two, callW]))
  have e8 : Reach true false ⟨3, [], none, [], 2, two (gone (callW 2 true [] 2))
      ⟨1, true, [2], 0, .finished, false⟩⟩ := by
    simpa [Reads.set, two_set1, Call.resumed, two, callW] using h8
  refine ⟨_, e8, fun c hc => ?_, ⟨by simp, by simp [two], by simp [two]⟩, by simp, ?_⟩
  · have : c = 0 ∨ c = 1 := by simp at hc; omega
    rcases this with rfl | rfl
    · exact .inr (by simp [two, gone])
    · exact .inl (by simp [two])
  · rintro c l ⟨hc, hf, rfl⟩
    have : c = 0 ∨ c = 1 := by simp at hc; omega
    rcases this with rfl | rfl
    · simp [two, gone] at hf
    · simp [two]

/-- **C79, refuted for calls that overlap.**  Two calls with `block` that overlap can interleave: here the
first returns two pieces of the file, and what lies between was returned to the other. -/
theorem C79_overlap_refuted : ∃ s, Reach false true s ∧ Returned s 0 [0, 1, 6, 7] ∧
    Returned s 1 [2, 3, 4, 5] := by
  have h1 := (reach_posted false true 4 2 true (by decide)).go (.start _ 4 true (fun h => by simp at h))
  have e1 : Reach false true ⟨2, [1], none, [(0, [0, 1])], 2, two (callW 4 true [] 4) (callW 4 true [] 4)⟩ := by
    simpa [Reads.set, one_two, callW, List.range'] using h1
  have h2 := e1.go (.take _ 1 [] rfl rfl (by simp [two, callW]))
  have h3 := h2.go (.finish _ 1 4 rfl (by simp [two, callW]))
  have h4 := h3.go (.deliver _ 0 [0, 1] [(1, [2, 3, 4, 5])] rfl (by simp [two, callW]))
  have h5 := h4.go (.again _ 0 [0, 1] (by simp [Reads.set]) (by simp [Reads.set, Call.resumed, two, callW]))
  have e5 : Reach false true ⟨6, [0], none, [(1, [2, 3, 4, 5])], 2,
      two (callW 4 true [0, 1] 2) (callW 4 true [] 4)⟩ := by
    simpa [Reads.set, two_set0, Call.resumed, two_0, callW] using h5
  have h6 := e5.go (.deliver _ 1 [2, 3, 4, 5] [] rfl (by simp [two, callW]))
  have h7 := h6.go (.done _ 1 [2, 3, 4, 5] (by simp [Reads.set])
    (by simp [Reads.set, Call.resumed, two, callW]))
  have e7 : Reach false true ⟨6, [0], none, [], 2,
      two (callW 4 true [0, 1] 2) ⟨4, true, [2, 3, 4, 5], 0, .finished, false⟩⟩ := by
    simpa [Reads.set, two_set1, Call.resumed, two, callW] using h7
  have h8 := e7.go (.take _ 0 [] rfl rfl (by simp [two, callW]))
  have h9 := h8.go (.finish _ 0 2 rfl (by simp [two, callW]))
  have h10 := h9.go (.deliver _ 0 [6, 7] [] rfl (by simp [two, callW]))
  have h11 := h10.go (.done _ 0 [6, 7] (by simp [Reads.set]) (by simp [Reads.set, Call.resumed, two, callW]))
  have e11 : Reach false true ⟨8, [], none, [], 2,
      two ⟨4, true, [0, 1, 6, 7], 0, .finished, false⟩ ⟨4, true, [2, 3, 4, 5], 0, .finished, false⟩⟩ := by
    simpa [Reads.set, two_set0, Call.resumed, two_0, callW] using h11
  exact ⟨_, e11, ⟨by simp, by simp [two], by simp [two]⟩, ⟨by simp, by simp [two], by simp [two]⟩⟩

/-- **C79, refuted: a call returns.**  At the end of the file, or when the device is silent, a call with
`block` runs in a circle without waiting between the rounds. -/
theorem C79_end_refuted : ∃ s, Reach true true s ∧ (s.calls 0).phase = .waiting ∧
    TransGen (Step true true) s s := by
  refine ⟨_, reach_one true true 1 true, by simp [one, callW], ?_⟩
  have h1 := Step.take (seq := true) (clean := true) ⟨0, [0], none, [], 1, one (callW 1 true [] 1)⟩ 0 []
    rfl rfl (by simp [one, callW])
  have h2 := Step.finish (seq := true) (clean := true) ⟨0, [], some 0, [], 1, one (callW 1 true [] 1)⟩ 0 0
    rfl (by simp)
  have h3 := Step.deliver (seq := true) (clean := true) ⟨0, [], none, [(0, [])], 1, one (callW 1 true [] 1)⟩
    0 [] [] rfl (by simp [one, callW])
  have h4 := Step.again (seq := true) (clean := true)
    ⟨0, [], none, [], 1, one { callW 1 true [] 1 with phase := .ready [] }⟩ 0 [] (by simp [one])
    (by simp [one, Call.resumed, callW])
  have h3' : Step true true ⟨0, [], none, [(0, [])], 1, one (callW 1 true [] 1)⟩
    ⟨0, [], none, [], 1, one { callW 1 true [] 1 with phase := .ready [] }⟩ := by
    simpa [Reads.set, one, callW] using h3
  have h4' : Step true true ⟨0, [], none, [], 1, one { callW 1 true [] 1 with phase := .ready [] }⟩
    ⟨0, [0], none, [], 1, one (callW 1 true [] 1)⟩ := by
    simpa [Reads.set, one, callW, Call.resumed] using h4
  exact (((TransGen.single h1).tail h2).tail h3').tail h4'

/-- A call without `block` that got one byte of two: the hypotheses of the theorems above can be met. -/
theorem reach_short : Reach true true ⟨1, [], none, [], 1, one ⟨2, false, [0], 1, .finished, false⟩⟩ := by
  have h1 := (reach_posted true true 2 1 false (by decide)).go (.deliver _ 0 [0] [] rfl (by simp [one, callW]))
  have h2 := h1.go (.done _ 0 [0] (by simp [Reads.set]) (by simp [Reads.set, Call.resumed, one, callW]))
  simpa [Reads.set, Call.resumed, one, callW] using h2

example : ∃ s, Reach true true s ∧ (∀ c, c < s.next → (s.calls c).Over) ∧ Returned s 0 [0] := by
  refine ⟨_, reach_short, fun c hc => ?_, ⟨by simp, by simp [one], by simp [one]⟩⟩
  obtain rfl : c = 0 := by simp at hc; omega
  exact .inl (by simp [one])

example : ∃ s c, Reach true true s ∧ ¬ (s.calls c).Over :=
  ⟨_, 0, reach_one true true 3 true, by simp [one, callW, Call.Over]⟩

end Verif.Aio
