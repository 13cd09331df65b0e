import Verif.Aio.Read

/-!
# No byte is read twice, and when none is lost (C79)
-/

namespace Verif.Aio

open Relation

theorem range'_coe (a k : ℕ) :
    (Multiset.range (a + k)) = Multiset.range a + (List.range' a k : Multiset ℕ) := by
  have : List.range (a + k) = List.range a ++ List.range' a k := by
    rw [List.range_eq_range', List.range_eq_range', ← List.range'_append (s := 0) (m := a) (n := k) (step := 1)]
    simp
  rw [← Multiset.coe_range, this]
  rfl

/-- Every position is at one place at most. -/
def Ledger (clean : Bool) (s : Reads) : Prop :=
  heldBy s + onTheWay s ≤ Multiset.range s.pos ∧
  (clean = true → heldBy s + onTheWay s = Multiset.range s.pos) ∧
  (clean = true → ∀ c, (s.calls c).phase ≠ .cancelling) ∧
  (clean = true → ∀ c ∈ s.posted.map Prod.fst, (s.calls c).phase = .waiting)

theorem Ledger.init (clean : Bool) : Ledger clean Reads.init := by
  simp [Ledger, heldBy, onTheWay, Reads.init]

theorem Ledger.step {seq clean : Bool} {s t : Reads} (hi : Inv s) (hl : Ledger clean s)
    (hs : Step seq clean s t) : Ledger clean t := by
  obtain ⟨l1, l2, l3, l4⟩ := hl
  cases hs with
  | start size block h =>
    have hn : s.next ∉ s.posted.map Prod.fst := fun hm => by
      have := hi.lt _ (.inr (.inr hm)); omega
    have e1 : heldBy { (s.set s.next ⟨size, block, [], size, .waiting, false⟩) with
        next := s.next + 1, queue := s.queue ++ [s.next] } = heldBy s := by
      unfold heldBy
      simp only [Finset.sum_range_succ]
      rw [Finset.sum_congr rfl (g := fun c => ((s.calls c).held : Multiset ℕ))]
      · simp [Reads.set, Call.held]
      · intro c hc
        have : c ≠ s.next := by have := Finset.mem_range.1 hc; omega
        simp [Reads.set, Function.update_apply, this]
    have e2 := onTheWay_set s s.next ⟨size, block, [], size, .waiting, false⟩ hn
    refine ⟨?_, fun hc => ?_, fun hc c => ?_, fun hc c hm => ?_⟩
    · rw [e1]; exact e2 ▸ l1
    · rw [e1]; exact e2 ▸ l2 hc
    · by_cases h : c = s.next <;> simp [Reads.set, Function.update_apply, h, l3 hc c]
    · by_cases h : c = s.next
      · simp [Reads.set, Function.update_apply, h]
      · simpa [Reads.set, Function.update_apply, h] using l4 hc c hm
  | pass c q hw hq hs => exact ⟨l1, l2, l3, l4⟩
  | take c q hw hq hs => exact ⟨l1, l2, l3, l4⟩
  | finish c k hw hk =>
    have e1 : heldBy { s with
        worker := none, pos := s.pos + k, posted := s.posted ++ [(c, List.range' s.pos k)] } = heldBy s := rfl
    have e2 : onTheWay { s with
        worker := none, pos := s.pos + k, posted := s.posted ++ [(c, List.range' s.pos k)] } = onTheWay s +
          if (s.calls c).phase = .waiting then (List.range' s.pos k : Multiset ℕ) else 0 := by
      unfold onTheWay
      by_cases h : (s.calls c).phase = .waiting <;> simp [h, List.filter_append, List.flatMap_append]
    have hw' : clean = true → (s.calls c).phase = .waiting := fun hc => by
      have := hi.isOpen c (.inr (.inl hw)); have := hi.busy c hw; have := l3 hc c; tauto
    refine ⟨?_, fun hc => ?_, l3, fun hc x hm => ?_⟩
    · rw [e1, e2, range'_coe, ← add_assoc]
      refine add_le_add l1 ?_
      split_ifs
      · exact le_rfl
      · exact bot_le
    · rw [e1, e2, range'_coe, ← add_assoc, l2 hc, if_pos (hw' hc)]
    · simp only [List.map_append, List.map_cons, List.map_nil, List.mem_append, List.mem_singleton] at hm
      rcases hm with hm | rfl
      · exact l4 hc x hm
      · exact hw' hc
  | deliver c d p hp hc =>
    have hcn : c < s.next := hi.lt c (.inr (.inr (by simp [hp])))
    have hnp : c ∉ p.map Prod.fst := by have := hi.nodupP; rw [hp] at this; simp at this; simpa using this.1
    have e1 := heldBy_set s c { s.calls c with phase := .ready d } hcn
    have e2 : onTheWay s = (d : Multiset ℕ) + onTheWay { s with posted := p } := by
      unfold onTheWay; rw [hp]; simp [hc]
    have e3 := onTheWay_set { s with posted := p } c { s.calls c with phase := .ready d } hnp
    rw [held_waiting _ hc, held_ready _ d rfl] at e1
    have e4 : heldBy (s.set c { s.calls c with phase := .ready d }) = heldBy s + (d : Multiset ℕ) := by
      have : heldBy (s.set c { s.calls c with phase := .ready d }) + ((s.calls c).acc : Multiset ℕ) =
          heldBy s + (d : Multiset ℕ) + ((s.calls c).acc : Multiset ℕ) := by
        rw [e1, ← Multiset.coe_add]; abel
      exact add_right_cancel this
    have e5 : heldBy { (s.set c { s.calls c with phase := .ready d }) with posted := p } +
        onTheWay { (s.set c { s.calls c with phase := .ready d }) with posted := p } =
        heldBy s + onTheWay s := by
      have a : heldBy { (s.set c { s.calls c with phase := .ready d }) with posted := p } =
        heldBy (s.set c { s.calls c with phase := .ready d }) := rfl
      have b : onTheWay { (s.set c { s.calls c with phase := .ready d }) with posted := p } =
        onTheWay { s with posted := p } := e3
      rw [a, b, e4, e2]; abel
    refine ⟨e5 ▸ l1, fun h => e5 ▸ l2 h, fun h x => ?_, fun h x hm => ?_⟩
    · by_cases hx : x = c <;> simp [Reads.set, Function.update_apply, hx, l3 h x]
    · have hx : x ≠ c := fun hx => hnp (hx ▸ hm)
      have := l4 h x (by rw [hp]; simp at hm ⊢; tauto)
      simpa [Reads.set, Function.update_apply, hx] using this
  | lose c d p hp hc =>
    have e2 : onTheWay s = onTheWay { s with posted := p } := by
      unfold onTheWay; rw [hp]; simp [hc]
    refine ⟨e2 ▸ l1, fun h => e2 ▸ l2 h, l3, fun h x hm => l4 h x ?_⟩
    rw [hp]; simp at hm ⊢; tauto
  | done c d hc h =>
    have hcn : c < s.next := by
      by_contra hx; have := hi.fresh c (by omega); simp [hc] at this
    have hj : ¬ HasJob s c := fun hm => by have := hi.isOpen _ hm; simp [hc] at this
    have e1 := heldBy_set s c ((s.calls c).resumed d) hcn
    rw [held_ready _ d hc, held_finished _ h] at e1
    have e2 := onTheWay_set s c ((s.calls c).resumed d) (fun hm => hj (.inr (.inr hm)))
    have e3 : heldBy (s.set c ((s.calls c).resumed d)) = heldBy s := add_right_cancel e1
    refine ⟨by rw [e2, e3]; exact l1, fun h' => by rw [e2, e3]; exact l2 h', fun h' x => ?_, fun h' x hm => ?_⟩
    · by_cases hx : x = c <;> simp [Reads.set, Function.update_apply, hx, l3 h' x, h]
    · have hx : x ≠ c := fun hx => hj (.inr (.inr (hx ▸ hm)))
      simpa [Reads.set, Function.update_apply, hx] using l4 h' x hm
  | again c d hc h =>
    have hcn : c < s.next := by
      by_contra hx; have := hi.fresh c (by omega); simp [hc] at this
    have hj : ¬ HasJob s c := fun hm => by have := hi.isOpen _ hm; simp [hc] at this
    have e1 := heldBy_set s c ((s.calls c).resumed d) hcn
    rw [held_ready _ d hc, held_waiting _ h] at e1
    have e2 := onTheWay_set s c ((s.calls c).resumed d) (fun hm => hj (.inr (.inr hm)))
    have e3 : heldBy (s.set c ((s.calls c).resumed d)) = heldBy s := add_right_cancel e1
    have e4 : heldBy { (s.set c ((s.calls c).resumed d)) with queue := s.queue ++ [c] } +
        onTheWay { (s.set c ((s.calls c).resumed d)) with queue := s.queue ++ [c] } =
        heldBy (s.set c ((s.calls c).resumed d)) + onTheWay (s.set c ((s.calls c).resumed d)) := rfl
    refine ⟨by rw [e4, e2, e3]; exact l1, fun h' => by rw [e4, e2, e3]; exact l2 h', fun h' x => ?_,
      fun h' x hm => ?_⟩
    · by_cases hx : x = c <;> simp [Reads.set, Function.update_apply, hx, l3 h' x, h]
    · have hx : x ≠ c := fun hx => hj (.inr (.inr (hx ▸ hm)))
      simpa [Reads.set, Function.update_apply, hx] using l4 h' x hm
  | cancel c hn hc =>
    have hcn : c < s.next := by
      by_contra hx; have := hi.fresh c (by omega); simp [this] at hc
    have e1 := heldBy_set s c { s.calls c with phase := .cancelling } hcn
    have e2 := onTheWay_le s c { s.calls c with phase := .cancelling } (by simp)
    have e3 : heldBy (s.set c { s.calls c with phase := .cancelling }) ≤ heldBy s := by
      have : heldBy (s.set c { s.calls c with phase := .cancelling }) + ((s.calls c).held : Multiset ℕ) =
        heldBy s := by rw [e1]; simp [Call.held]
      rw [← this]; exact Multiset.le_add_right _ _
    refine ⟨(add_le_add e3 e2).trans l1, ?_, ?_, ?_⟩ <;> simp [hn]
  | release c hn hc hw =>
    have hcn : c < s.next := by
      by_contra hx; have := hi.fresh c (by omega); simp [this] at hc
    have e1 := heldBy_set s c { s.calls c with phase := .cancelled, skip := true } hcn
    have e2 := onTheWay_le s c { s.calls c with phase := .cancelled, skip := true } (by simp)
    have e3 : heldBy (s.set c { s.calls c with phase := .cancelled, skip := true }) ≤ heldBy s := by
      have : heldBy (s.set c { s.calls c with phase := .cancelled, skip := true }) +
        ((s.calls c).held : Multiset ℕ) = heldBy s := by rw [e1]; simp [Call.held]
      rw [← this]; exact Multiset.le_add_right _ _
    refine ⟨(add_le_add e3 e2).trans l1, ?_, ?_, ?_⟩ <;> simp [hn]
  | drop c hc hq ha hw =>
    have hcn : c < s.next := hi.lt c (.inl hq)
    have hnp : c ∉ s.posted.map Prod.fst := hi.qp c hq
    have e1 := heldBy_set s c { s.calls c with phase := .cancelled, skip := true } hcn
    have e2 := onTheWay_set s c { s.calls c with phase := .cancelled, skip := true } hnp
    have e3 : heldBy (s.set c { s.calls c with phase := .cancelled, skip := true }) = heldBy s := by
      have : heldBy (s.set c { s.calls c with phase := .cancelled, skip := true }) +
        ((s.calls c).held : Multiset ℕ) = heldBy s := by rw [e1]; simp [Call.held]
      simpa [held_waiting _ hc, ha] using this
    refine ⟨by rw [e2, e3]; exact l1, fun h' => by rw [e2, e3]; exact l2 h', fun h' x => ?_, fun h' x hm => ?_⟩
    · by_cases hx : x = c <;> simp [Reads.set, Function.update_apply, hx, l3 h' x]
    · have hx : x ≠ c := fun hx => hnp (hx ▸ hm)
      simpa [Reads.set, Function.update_apply, hx] using l4 h' x hm

theorem Ledger.reach {seq clean : Bool} {s : Reads} (h : Reach seq clean s) : Ledger clean s := by
  induction h with
  | refl => exact Ledger.init clean
  | tail h hs ih => exact ih.step (Inv.reach h) hs

end Verif.Aio
