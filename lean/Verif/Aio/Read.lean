import Verif.Aio.Model
import Mathlib.Data.List.Range
import Mathlib.Tactic

/-!
# What `AioStream.read` delivers (C79)
-/

namespace Verif.Aio

open Relation

/-! ## Specification -/

/-- The positions that a call has or can still return. -/
def Call.held (x : Call) : List ℕ :=
  match x.phase with
  | .waiting => x.acc
  | .ready d => x.acc ++ d
  | .finished => x.acc
  | .cancelling => []
  | .cancelled => []

/-- All positions that calls hold. -/
def heldBy (s : Reads) : Multiset ℕ := ∑ c ∈ Finset.range s.next, ((s.calls c).held : Multiset ℕ)

/-- All positions on the way to calls that wait. -/
def onTheWay (s : Reads) : Multiset ℕ :=
  ((s.posted.filter fun e => (s.calls e.1).phase = .waiting).flatMap Prod.snd : List ℕ)

/-- The call has returned `l`. -/
def Returned (s : Reads) (c : ℕ) (l : List ℕ) : Prop :=
  c < s.next ∧ (s.calls c).phase = .finished ∧ (s.calls c).acc = l

/-! ## Where the jobs are -/

/-- The call has a job: in the queue, with the worker, or with its result on the way. -/
def HasJob (s : Reads) (c : ℕ) : Prop :=
  c ∈ s.queue ∨ s.worker = some c ∨ c ∈ s.posted.map Prod.fst

/-- What holds in every state. -/
structure Inv (s : Reads) : Prop where
  lt : ∀ c, HasJob s c → c < s.next
  nodupQ : s.queue.Nodup
  nodupP : (s.posted.map Prod.fst).Nodup
  qw : ∀ c ∈ s.queue, s.worker ≠ some c
  qp : ∀ c ∈ s.queue, c ∉ s.posted.map Prod.fst
  wp : ∀ c, s.worker = some c → c ∉ s.posted.map Prod.fst
  fresh : ∀ c, s.next ≤ c → (s.calls c).phase = .finished
  isOpen : ∀ c, HasJob s c → (s.calls c).phase = .waiting ∨ (s.calls c).phase = .cancelling ∨
    (s.calls c).phase = .cancelled
  known : ∀ c, (s.calls c).phase = .waiting → HasJob s c
  skip : ∀ c, (s.calls c).skip = true ↔ (s.calls c).phase = .cancelled
  busy : ∀ c, s.worker = some c → (s.calls c).phase ≠ .cancelled
  len : ∀ c, (s.calls c).acc.length + (s.calls c).remaining = (s.calls c).size
  fits : ∀ c d, (s.calls c).phase = .ready d → d.length ≤ (s.calls c).remaining
  fits' : ∀ c d, (c, d) ∈ s.posted → d.length ≤ (s.calls c).remaining
  all : ∀ c, (s.calls c).phase = .finished → (s.calls c).block = true → (s.calls c).remaining = 0

theorem Inv.init : Inv Reads.init := by
  constructor <;> simp [Reads.init, HasJob]

theorem nodup_snoc {l : List ℕ} {a : ℕ} (h : l.Nodup) (ha : a ∉ l) : (l ++ [a]).Nodup := by
  rw [List.nodup_append]; simp_all; grind

set_option maxHeartbeats 2000000 in
theorem Inv.step {seq clean : Bool} {s t : Reads} (hi : Inv s) (hs : Step seq clean s t) : Inv t := by
  have hi' := hi
  obtain ⟨h1, h2, h2b, h2c, h2d, h2e, h3, h4, h5, h6, h7, h8, h9, h10, h11⟩ := hi'
  have hnext : ¬ HasJob s s.next := fun hm => by have := h1 _ hm; omega
  cases hs with
  | start size block h =>
    have := nodup_snoc h2 (a := s.next) (fun hm => hnext (.inl hm))
    constructor <;> simp only [HasJob, Reads.set, Function.update_apply, List.mem_append,
      List.mem_singleton] at * <;> grind
  | pass c q hw hq hs => constructor <;> simp only [HasJob] at * <;> grind
  | take c q hw hq hs => constructor <;> simp only [HasJob] at * <;> grind
  | finish c k hw hk =>
    have := nodup_snoc h2b (h2e c hw)
    constructor <;> simp only [HasJob, List.map_append, List.mem_append, List.map_cons, List.map_nil,
      List.mem_singleton] at * <;> grind [List.length_range']
  | deliver c d p hp hc =>
    have hd := h10 c d (by simp [hp])
    constructor <;> simp only [HasJob, Reads.set, Function.update_apply] at * <;> grind
  | lose c d p hp hc => constructor <;> simp only [HasJob] at * <;> grind
  | done c d hc h =>
    have hc4 : ¬ HasJob s c := fun hm => by have := h4 _ hm; simp [hc] at this
    have hd := h9 c d hc
    constructor <;> simp only [HasJob, Reads.set, Function.update_apply, Call.resumed] at * <;> grind
  | again c d hc h =>
    have hc4 : ¬ HasJob s c := fun hm => by have := h4 _ hm; simp [hc] at this
    have hd := h9 c d hc
    have := nodup_snoc h2 (a := c) (fun hm => hc4 (.inl hm))
    constructor <;> simp only [HasJob, Reads.set, Function.update_apply, Call.resumed, List.mem_append,
      List.mem_singleton] at * <;> grind
  | cancel c hn hc => constructor <;> simp only [HasJob, Reads.set, Function.update_apply] at * <;> grind
  | release c hn hc hw =>
    constructor <;> simp only [HasJob, Reads.set, Function.update_apply] at * <;> grind
  | drop c hc hq ha hw =>
    constructor <;> simp only [HasJob, Reads.set, Function.update_apply] at * <;> grind

theorem Inv.reach {seq clean : Bool} {s : Reads} (h : Reach seq clean s) : Inv s := by
  induction h with
  | refl => exact Inv.init
  | tail _ hs ih => exact ih.step hs

/-! ## The ledger of positions -/

theorem heldBy_set (s : Reads) (c : ℕ) (x : Call) (hc : c < s.next) :
    heldBy (s.set c x) + ((s.calls c).held : Multiset ℕ) = heldBy s + (x.held : Multiset ℕ) := by
  have hm : c ∈ Finset.range s.next := Finset.mem_range.2 hc
  have h1 : heldBy (s.set c x) = (x.held : Multiset ℕ) +
      ∑ i ∈ Finset.range s.next \ {c}, ((s.calls i).held : Multiset ℕ) := by
    have : heldBy (s.set c x) = ∑ i ∈ Finset.range s.next,
        Function.update (fun i => ((s.calls i).held : Multiset ℕ)) c (x.held : Multiset ℕ) i := by
      refine Finset.sum_congr rfl fun i _ => ?_
      by_cases h : i = c <;> simp [Reads.set, h, Function.update_apply]
    rw [this, Finset.sum_update_of_mem hm]
  have h2 : heldBy s = ((s.calls c).held : Multiset ℕ) +
      ∑ i ∈ Finset.range s.next \ {c}, ((s.calls i).held : Multiset ℕ) := by
    have := Finset.sum_update_of_mem hm (fun i => ((s.calls i).held : Multiset ℕ)) ((s.calls c).held : Multiset ℕ)
    rwa [Function.update_eq_self c (fun i => ((s.calls i).held : Multiset ℕ))] at this
  rw [h1, h2]
  abel

theorem onTheWay_set (s : Reads) (c : ℕ) (x : Call) (hc : c ∉ s.posted.map Prod.fst) :
    onTheWay (s.set c x) = onTheWay s := by
  unfold onTheWay
  congr 2
  refine List.filter_congr fun e he => ?_
  have : e.1 ≠ c := fun h => hc (h ▸ List.mem_map_of_mem he)
  simp [Reads.set, Function.update_apply, this]

theorem onTheWay_le (s : Reads) (c : ℕ) (x : Call) (hx : x.phase ≠ .waiting) :
    onTheWay (s.set c x) ≤ onTheWay s := by
  unfold onTheWay
  rw [Multiset.coe_le]
  refine List.Sublist.subperm ?_
  refine List.Sublist.flatMap (List.monotone_filter_right _ fun e he => ?_) _
  by_cases h : e.1 = c <;> simp_all [Reads.set, Function.update_apply]

theorem held_finished (x : Call) (h : x.phase = .finished) : x.held = x.acc := by simp [Call.held, h]
theorem held_waiting (x : Call) (h : x.phase = .waiting) : x.held = x.acc := by simp [Call.held, h]
theorem held_ready (x : Call) (d) (h : x.phase = .ready d) : x.held = x.acc ++ d := by simp [Call.held, h]

end Verif.Aio
