import Verif.Aio.Ledger

/-!
# The order of the bytes when calls of `AioStream.read` follow each other (C79)
-/

namespace Verif.Aio

open Relation

/-- The positions directly before `b`. -/
def Tail (b : ℕ) (l : List ℕ) : Prop := l.length ≤ b ∧ l = List.range' (b - l.length) l.length

theorem Tail.nil (b : ℕ) : Tail b [] := by simp [Tail]

theorem Tail.grow {b : ℕ} {l : List ℕ} (h : Tail b l) (k : ℕ) : Tail (b + k) (l ++ List.range' b k) := by
  obtain ⟨h1, h2⟩ := h
  refine ⟨by simp; omega, ?_⟩
  have e : b + k - (l ++ List.range' b k).length = b - l.length := by simp; omega
  rw [e]
  conv_lhs => rw [h2]
  have : b = (b - l.length) + 1 * l.length := by omega
  conv_lhs => rw [this]
  simp only [List.length_append, List.length_range']
  rw [← List.range'_append]
  simp [h1]

/-- What holds when calls follow each other. -/
structure SeqInv (s : Reads) : Prop where
  ended : ∀ c, c + 1 < s.next → (s.calls c).Over
  past : ∀ c, (s.calls c).phase = .finished → ∃ b, b ≤ s.pos ∧ Tail b (s.calls c).acc
  asked : ∀ c, (s.calls c).phase = .waiting → c ∉ s.posted.map Prod.fst → Tail s.pos (s.calls c).acc
  coming : ∀ c d, (s.calls c).phase = .waiting → (c, d) ∈ s.posted → Tail s.pos ((s.calls c).acc ++ d)
  here : ∀ c d, (s.calls c).phase = .ready d → Tail s.pos ((s.calls c).acc ++ d)
  below : ∀ c, (s.calls c).phase = .finished → ∀ x ∈ (s.calls c).acc, x < s.pos
  order : ∀ i j, i < j → j < s.next → (s.calls i).phase = .finished → ∀ x ∈ (s.calls i).acc,
    (∀ y ∈ (s.calls j).acc, x < y) ∧
    (∀ d, (s.calls j).phase = .ready d → ∀ y ∈ d, x < y) ∧
    (∀ d, (j, d) ∈ s.posted → ∀ y ∈ d, x < y)

theorem SeqInv.init : SeqInv Reads.init := by
  constructor <;> simp [Reads.init, Tail]

theorem Tail.lt {b : ℕ} {l : List ℕ} (h : Tail b l) : ∀ x ∈ l, x < b := by
  intro x hx
  rw [h.2] at hx
  have := List.mem_range'_1.1 hx
  have := h.1
  omega

/-- The only call that is not over is the last one. -/
theorem SeqInv.last {s : Reads} (hq : SeqInv s) (hi : Inv s) {c : ℕ} (h : ¬ (s.calls c).Over) :
    c + 1 = s.next := by
  by_contra hne
  rcases lt_or_gt_of_ne hne with h' | h'
  · exact h (hq.ended c h')
  · exact h (.inl (hi.fresh c (by omega)))

/-- What is to be shown of a step that changes the last call only. -/
theorem SeqInv.change {s t : Reads} (hq : SeqInv s) (hi : Inv s) (c : ℕ)
    (ht : ∀ i, i ≠ c → t.calls i = s.calls i) (hpos : t.pos = s.pos) (hlast : c + 1 = t.next)
    (hnext : c ≤ s.next) (hnext' : s.next ≤ c + 1)
    (hover : ∀ i, i < c → (s.calls i).Over)
    (hposted : ∀ i d, i ≠ c → (i, d) ∈ t.posted → (i, d) ∈ s.posted)
    (past : (t.calls c).phase = .finished → Tail s.pos (t.calls c).acc)
    (asked : (t.calls c).phase = .waiting → c ∉ t.posted.map Prod.fst → Tail s.pos (t.calls c).acc)
    (coming : ∀ d, (t.calls c).phase = .waiting → (c, d) ∈ t.posted → Tail s.pos ((t.calls c).acc ++ d))
    (here : ∀ d, (t.calls c).phase = .ready d → Tail s.pos ((t.calls c).acc ++ d))
    (order : ∀ i, i < c → (s.calls i).phase = .finished → ∀ x ∈ (s.calls i).acc,
      (∀ y ∈ (t.calls c).acc, x < y) ∧
      (∀ d, (t.calls c).phase = .ready d → ∀ y ∈ d, x < y) ∧
      (∀ d, (c, d) ∈ t.posted → ∀ y ∈ d, x < y)) : SeqInv t := by
  have hov : ∀ i, i ≠ c → (t.calls i).Over := by
    intro i hne
    rw [ht i hne]
    rcases lt_or_gt_of_ne hne with h | h
    · exact hover i h
    · exact .inl (hi.fresh i (by omega))
  have hnw : ∀ i, (t.calls i).phase = .waiting → i = c := by
    intro i h; by_contra hne
    have := hov i hne
    simp [Call.Over, h] at this
  have hnr : ∀ i d, (t.calls i).phase = .ready d → i = c := by
    intro i d h; by_contra hne
    have := hov i hne
    simp [Call.Over, h] at this
  refine ⟨fun i h => hov i (by omega), fun i h => ?_, fun i h => ?_, fun i d h => ?_, fun i d h => ?_,
    fun i h => ?_, fun i j hij hj h x hx => ?_⟩
  · by_cases hne : i = c
    · subst hne; exact ⟨s.pos, hpos.symm.le, past h⟩
    · rw [ht i hne] at h ⊢; rw [hpos]; exact hq.past i h
  · obtain rfl := hnw i h; rw [hpos]; exact asked h
  · obtain rfl := hnw i h; rw [hpos]; exact coming d h
  · obtain rfl := hnr i d h; rw [hpos]; exact here d h
  · by_cases hne : i = c
    · subst hne; rw [hpos]; exact (past h).lt
    · rw [ht i hne] at h ⊢; rw [hpos]; exact hq.below i h
  · have hne : i ≠ c := by omega
    rw [ht i hne] at h hx
    by_cases hjc : j = c
    · subst hjc; exact order i hij h x hx
    · obtain ⟨a1, a2, a3⟩ := hq.order i j hij (by omega) h x hx
      rw [ht j hjc]
      exact ⟨a1, a2, fun d hm => a3 d (hposted j d hjc hm)⟩

theorem SeqInv.step {clean : Bool} {s t : Reads} (hi : Inv s) (hq : SeqInv s)
    (hs : Step true clean s t) : SeqInv t := by
  have hlast := fun c => hq.last hi (c := c)
  have hover : ∀ c, ¬ (s.calls c).Over → ∀ i, i < c → (s.calls i).Over := fun c hc i h =>
    hq.ended i (by have := hlast c hc; omega)
  have hcancel : ∀ c x, ¬ (s.calls c).Over → (x.phase = .cancelling ∨ x.phase = .cancelled) →
      x.acc = (s.calls c).acc → SeqInv (s.set c x) := by
    intro c x hc hx ha
    have hl := hlast c hc
    refine hq.change hi c (fun i h => by simp [Reads.set, Function.update_apply, h]) rfl hl (by omega)
      (by omega) (hover c hc) (fun i d _ h => h) ?_ ?_ ?_ ?_ ?_
    · intro h; simp [Reads.set] at h; simp [h] at hx
    · intro h; simp [Reads.set] at h; simp [h] at hx
    · intro d h; simp [Reads.set] at h; simp [h] at hx
    · intro d h; simp [Reads.set] at h; simp [h] at hx
    · intro i hic hfi y hy
      obtain ⟨a1, a2, a3⟩ := hq.order i c hic (by omega) hfi y hy
      refine ⟨by simpa [Reads.set, ha] using a1, fun d h => ?_, a3⟩
      simp [Reads.set] at h; simp [h] at hx
  cases hs with
  | start size block h =>
    have hnp : s.next ∉ s.posted.map Prod.fst := fun hm => by
      have := hi.lt _ (.inr (.inr hm)); omega
    refine hq.change hi s.next (fun i h => by simp [Reads.set, Function.update_apply, h]) rfl rfl le_rfl
      (by omega) (fun i hx => h rfl i hx) (fun i d _ h => h) ?_ ?_ ?_ ?_ ?_
    · simp [Reads.set]
    · simp [Reads.set, Tail.nil]
    · intro d _ hm
      exact absurd (List.mem_map_of_mem (f := Prod.fst) hm) hnp
    · simp [Reads.set]
    · intro i hic hfi y hy
      refine ⟨by simp [Reads.set], by simp [Reads.set], fun d hm => ?_⟩
      exact absurd (List.mem_map_of_mem (f := Prod.fst) hm) hnp
  | pass c q hw hq' hs => obtain ⟨q1, q2, q3, q4, q5, q6, q7⟩ := hq; exact ⟨q1, q2, q3, q4, q5, q6, q7⟩
  | take c q hw hq' hs => obtain ⟨q1, q2, q3, q4, q5, q6, q7⟩ := hq; exact ⟨q1, q2, q3, q4, q5, q6, q7⟩
  | finish c k hw hk =>
    obtain ⟨q1, q2, q3, q4, q5, q6, q7⟩ := hq
    have ho := hi.isOpen c (.inr (.inl hw))
    have hb := hi.busy c hw
    have hcl := hlast c (by simp only [Call.Over]; grind)
    have hcp := hi.wp c hw
    have hother : ∀ x, (s.calls x).phase = .waiting ∨ (∃ d, (s.calls x).phase = .ready d) → x = c := by
      intro x hx
      have := hlast x (by simp only [Call.Over]; grind)
      omega
    refine ⟨q1, ?_, ?_, ?_, ?_, ?_, ?_⟩
    · intro x hx
      obtain ⟨b, hb, ht⟩ := q2 x hx
      exact ⟨b, by simp only; omega, ht⟩
    · intro x hx hn
      have := hother x (.inl hx)
      subst this
      simp at hn
    · intro x d hx hm
      have := hother x (.inl hx)
      subst this
      simp only [List.mem_append, List.mem_singleton, Prod.mk.injEq, true_and] at hm
      rcases hm with hm | rfl
      · exact absurd (List.mem_map_of_mem (f := Prod.fst) hm) hcp
      · exact (q3 x hx hcp).grow k
    · intro x d hx
      have hx' : (s.calls x).phase = .ready d := hx
      have := hother x (.inr ⟨d, hx⟩)
      subst this
      rw [hx'] at ho
      simp at ho
    · intro x hx y hy
      exact lt_of_lt_of_le (q6 x hx y hy) (by simp)
    · intro i j hij hj hfi x hx
      obtain ⟨a1, a2, a3⟩ := q7 i j hij hj hfi x hx
      refine ⟨a1, a2, fun d hm y hy => ?_⟩
      simp only [List.mem_append, List.mem_singleton, Prod.mk.injEq] at hm
      rcases hm with hm | ⟨rfl, rfl⟩
      · exact a3 d hm y hy
      · have := q6 i hfi x hx
        have := (List.mem_range'_1.1 hy).1
        omega
  | deliver c d p hp hc =>
    have hn : ¬ (s.calls c).Over := by simp [Call.Over, hc]
    have hl := hlast c hn
    have hd : (c, d) ∈ s.posted := by simp [hp]
    have hnp : c ∉ p.map Prod.fst := by
      have := hi.nodupP; rw [hp] at this; simp at this; simpa using this.1
    refine hq.change hi c (fun i h => by simp [Reads.set, Function.update_apply, h]) rfl hl (by omega)
      (by omega) (hover c hn) (fun i e _ h => by rw [hp]; exact List.mem_cons_of_mem _ h) ?_ ?_ ?_ ?_ ?_
    · simp [Reads.set]
    · simp [Reads.set]
    · simp [Reads.set]
    · intro e he
      simp only [Reads.set, Function.update_self, Phase.ready.injEq] at he ⊢
      subst he
      exact hq.coming c d hc hd
    · intro i hic hfi y hy
      obtain ⟨a1, a2, a3⟩ := hq.order i c hic (by omega) hfi y hy
      refine ⟨by simpa [Reads.set] using a1, fun e he => ?_, fun e he => ?_⟩
      · simp only [Reads.set, Function.update_self, Phase.ready.injEq] at he
        subst he
        exact a3 d hd
      · exact absurd (List.mem_map_of_mem (f := Prod.fst) he) hnp
  | lose c d p hp hc =>
    obtain ⟨q1, q2, q3, q4, q5, q6, q7⟩ := hq
    refine ⟨q1, q2, fun x h hn => q3 x h ?_, fun x e h hm => q4 x e h ?_, q5, q6,
      fun i j hij hj hfi x hx => ?_⟩
    · intro hm
      rw [hp] at hm
      simp only [List.map_cons, List.mem_cons] at hm
      rcases hm with rfl | hm
      · exact hc h
      · exact hn hm
    · rw [hp]; exact List.mem_cons_of_mem _ hm
    · obtain ⟨a1, a2, a3⟩ := q7 i j hij hj hfi x hx
      exact ⟨a1, a2, fun e he => a3 e (by rw [hp]; exact List.mem_cons_of_mem _ he)⟩
  | done c d hc h =>
    have hn : ¬ (s.calls c).Over := by simp [Call.Over, hc]
    have hl := hlast c hn
    have hj : ¬ HasJob s c := fun hm => by have := hi.isOpen _ hm; simp [hc] at this
    have hp : c ∉ s.posted.map Prod.fst := fun hm => hj (.inr (.inr hm))
    have ha : ((s.calls c).resumed d).acc = (s.calls c).acc ++ d := rfl
    refine hq.change hi c (fun i h => by simp [Reads.set, Function.update_apply, h]) rfl hl (by omega)
      (by omega) (hover c hn) (fun i e _ h => h) ?_ ?_ ?_ ?_ ?_
    · intro _; simpa [Reads.set, ha] using hq.here c d hc
    · simp [Reads.set, h]
    · simp [Reads.set, h]
    · simp [Reads.set, h]
    · intro i hic hfi y hy
      obtain ⟨a1, a2, a3⟩ := hq.order i c hic (by omega) hfi y hy
      refine ⟨fun z hz => ?_, by simp [Reads.set, h], a3⟩
      simp only [Reads.set, Function.update_self, ha, List.mem_append] at hz
      exact hz.elim (a1 z) (a2 d hc z)
  | again c d hc h =>
    have hn : ¬ (s.calls c).Over := by simp [Call.Over, hc]
    have hl := hlast c hn
    have hj : ¬ HasJob s c := fun hm => by have := hi.isOpen _ hm; simp [hc] at this
    have hp : c ∉ s.posted.map Prod.fst := fun hm => hj (.inr (.inr hm))
    have ha : ((s.calls c).resumed d).acc = (s.calls c).acc ++ d := rfl
    refine hq.change hi c (fun i h => by simp [Reads.set, Function.update_apply, h]) rfl hl (by omega)
      (by omega) (hover c hn) (fun i e _ h => h) ?_ ?_ ?_ ?_ ?_
    · simp [Reads.set, h]
    · intro _ _; simpa [Reads.set, ha] using hq.here c d hc
    · intro e _ he; exact absurd (List.mem_map_of_mem (f := Prod.fst) he) hp
    · simp [Reads.set, h]
    · intro i hic hfi y hy
      obtain ⟨a1, a2, a3⟩ := hq.order i c hic (by omega) hfi y hy
      refine ⟨fun z hz => ?_, by simp [Reads.set, h], a3⟩
      simp only [Reads.set, Function.update_self, ha, List.mem_append] at hz
      exact hz.elim (a1 z) (a2 d hc z)
  | cancel c hn hc =>
    exact hcancel c _ (by rcases hc with hc | ⟨d, hc⟩ <;> simp [Call.Over, hc]) (.inl rfl) rfl
  | release c hn hc hw => exact hcancel c _ (by simp [Call.Over, hc]) (.inr rfl) rfl
  | drop c hc hq ha hw => exact hcancel c _ (by simp [Call.Over, hc]) (.inr rfl) rfl

theorem SeqInv.reach {clean : Bool} {s : Reads} (h : Reach true clean s) : SeqInv s := by
  induction h with
  | refl => exact SeqInv.init
  | tail h hs ih => exact ih.step (Inv.reach h) hs

end Verif.Aio
