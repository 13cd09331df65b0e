import Mathlib.Data.List.Basic
import Mathlib.Tactic.Cases

/-!
# The two buffers of a command

Model of how a command gets from the main loop to the control interrupt
(`fw/bldc_servo.cc` 343-345, 444, 911-913, 2459-2464).  `Command` fills the buffer
`next_data_` in many small steps and then exchanges two pointers with `std::swap`; the
interrupt may come between any two steps.  It works on `*current_data_`, which it also
changes (`position_relative_raw`, `timeout_s`, the velocity after a stop position …).

Simplifications: the steps are performed in the order of the program.  (The pointers are
volatile but the buffers are not, so the C++ standard alone would let a compiler move a
write to a buffer behind the exchange.)  A step of the main loop is one memory access; a
write of one member is atomic, the copy of the structure is any number of steps.

Property C85.
-/

namespace Verif.Fw.Buffer

variable {D : Type}

/-! ## Model -/

/-- What is left to do for the main loop. -/
inductive Act (D : Type)
  /-- a write to `*next`, the pointer having been read at line 345 -/
  | write (f : D → D)
  /-- `std::swap`: `tmp = current_data_` -/
  | save
  /-- `current_data_ = next_data_` -/
  | publish
  /-- `next_data_ = tmp` -/
  | restore

/-- What an observer of the interrupt and of the exchange sees. -/
inductive Label (D : Type)
  /-- the interrupt found `x` and left `y` -/
  | served (x y : D)
  /-- a command became the current one -/
  | published (x : D)
deriving DecidableEq

structure St (D : Type) where
  /-- `data_buffers_` -/
  buf : Bool → D
  /-- `current_data_` -/
  cur : Bool
  /-- `next_data_` -/
  next : Bool
  /-- the local `next` of `Command` -/
  ptr : Bool
  /-- the local variable of `std::swap` -/
  tmp : Bool
  todo : List (Act D)
  log : List (Label D)

inductive Ev (D : Type)
  /-- `Command` is called; its writes to the buffer -/
  | command (fs : List (D → D))
  /-- the main loop performs one access -/
  | step
  /-- the interrupt, which changes the current command by `g` -/
  | interrupt (g : D → D)

def act (s : St D) : Act D → St D
  | .write f => { s with buf := fun b => if b = s.ptr then f (s.buf b) else s.buf b }
  | .save => { s with tmp := s.cur }
  | .publish => { s with cur := s.next, log := s.log ++ [.published (s.buf s.next)] }
  | .restore => { s with next := s.tmp }

def exec (s : St D) : Ev D → St D
  | .command fs =>
    if s.todo.isEmpty then
      { s with ptr := s.next, todo := fs.map .write ++ [.save, .publish, .restore] }
    else s
  | .step =>
    match s.todo with
    | [] => s
    | a :: rest => { act s a with todo := rest }
  | .interrupt g =>
    { s with
      buf := fun b => if b = s.cur then g (s.buf b) else s.buf b
      log := s.log ++ [.served (s.buf s.cur) (g (s.buf s.cur))] }

def run (s : St D) (evs : List (Ev D)) : St D := evs.foldl exec s

/-- Lines 2462, 2463. -/
def initial (x y : D) : St D := ⟨fun b => if b then y else x, false, true, true, false, [], []⟩

/-! ## Specification: one atomic command -/

/-- The log of a single variable that is replaced at once and changed by the interrupt. -/
inductive Spec.Atomic : D → List (Label D) → D → Prop
  | start (x : D) : Spec.Atomic x [] x
  | served {x0 x y : D} {l} : Spec.Atomic x0 l x → Spec.Atomic x0 (l ++ [.served x y]) y
  | published {x0 x y : D} {l} : Spec.Atomic x0 l x → Spec.Atomic x0 (l ++ [.published y]) y

/-- The commands that became current, in order. -/
def Spec.published : List (Label D) → List D
  | [] => []
  | .published x :: l => x :: Spec.published l
  | .served _ _ :: l => Spec.published l

theorem published_append (l m : List (Label D)) :
    Spec.published (l ++ m) = Spec.published l ++ Spec.published m := by
  induction l with
  | nil => rfl
  | cons a l ih => cases a <;> simp [Spec.published, ih]

/-- The value that a sequence of writes leaves, if it does not depend on what was there
before: `*next = data` comes first. -/
def Writes (fs : List (D → D)) (v : D) : Prop := ∀ x, fs.foldl (fun a f => f a) x = v

/-! ## Proof -/

/-- What is still to be done by a call, and what it will publish. -/
inductive Phase (s : St D) : Option D → Prop
  | idle : s.todo = [] → s.next = !s.cur → Phase s none
  | writing (fs : List (D → D)) (v : D) : s.todo = fs.map .write ++ [.save, .publish, .restore] →
      s.next = !s.cur → s.ptr = s.next → fs.foldl (fun a f => f a) (s.buf s.next) = v →
      Phase s (some v)
  | saved : s.todo = [.publish, .restore] → s.next = !s.cur → s.tmp = s.cur →
      Phase s (some (s.buf s.next))
  | swapped : s.todo = [.restore] → s.tmp = !s.cur → Phase s none

def Inv (x0 : D) (s : St D) (pending : Option D) : Prop :=
  Spec.Atomic x0 s.log (s.buf s.cur) ∧ Phase s pending

/-- One event: either the pending command is published now, or it stays pending, or a new
one starts. -/
theorem inv_step {x0 : D} {s : St D} {pend : Option D} (h : Inv x0 s pend) (e : Ev D)
    (he : ∀ fs, e = .command fs → ∃ v, Writes fs v) :
    ∃ pend', Inv x0 (exec s e) pend' ∧
      ((Spec.published (exec s e).log = Spec.published s.log ∧ pend' = pend) ∨
       (∃ v, pend = some v ∧ pend' = none ∧
         Spec.published (exec s e).log = Spec.published s.log ++ [v]) ∨
       (∃ fs v, e = .command fs ∧ Writes fs v ∧ s.todo = [] ∧ pend = none ∧ pend' = some v ∧
         Spec.published (exec s e).log = Spec.published s.log)) := by
  obtain ⟨ha, hp⟩ := h
  cases e with
  | command fs =>
    obtain ⟨v, hv⟩ := he fs rfl
    by_cases hs : s.todo = []
    · have hnone : pend = none ∧ s.next = !s.cur := by
        cases hp with
        | idle _ h => exact ⟨rfl, h⟩
        | writing fs v g => rw [hs] at g; simp at g
        | saved g => rw [hs] at g; simp at g
        | swapped g => rw [hs] at g; simp at g
      have ex : exec s (.command fs) =
          { s with ptr := s.next, todo := fs.map .write ++ [.save, .publish, .restore] } := by
        simp [exec, hs]
      refine ⟨some v, ?_, Or.inr (Or.inr ⟨fs, v, rfl, hv, hs, hnone.1, rfl, by rw [ex]⟩)⟩
      rw [ex]
      exact ⟨ha, .writing fs v rfl hnone.2 rfl (hv _)⟩
    · have ex : exec s (.command fs) = s := by simp [exec, hs]
      rw [ex]
      exact ⟨pend, ⟨ha, hp⟩, Or.inl ⟨rfl, rfl⟩⟩
  | interrupt g =>
    refine ⟨pend, ⟨?_, ?_⟩, Or.inl ⟨by simp [exec, published_append, Spec.published], rfl⟩⟩
    · have := Spec.Atomic.served (y := g (s.buf s.cur)) ha
      simpa [exec] using this
    · cases hp with
      | idle h1 h2 => exact .idle h1 h2
      | writing fs v h1 h2 h3 h4 =>
        refine .writing fs v h1 h2 h3 ?_
        have : s.next ≠ s.cur := by rw [h2]; cases s.cur <;> simp
        simpa [exec, this] using h4
      | saved h1 h2 h3 =>
        have hn : s.next ≠ s.cur := by rw [h2]; cases s.cur <;> simp
        have : (exec s (.interrupt g)).buf (exec s (.interrupt g)).next = s.buf s.next := by
          simp [exec, hn]
        rw [← this]
        exact .saved h1 h2 h3
      | swapped h1 h2 => exact .swapped h1 h2
  | step =>
    cases hp with
    | idle h1 h2 =>
      have ex : exec s .step = s := by unfold exec; rw [h1]
      rw [ex]
      exact ⟨none, ⟨ha, .idle h1 h2⟩, Or.inl ⟨rfl, rfl⟩⟩
    | writing fs v h1 h2 h3 h4 =>
      have hn : s.cur ≠ s.next := by rw [h2]; cases s.cur <;> simp
      cases fs with
      | nil =>
        have ex : exec s .step = { s with tmp := s.cur, todo := [.publish, .restore] } := by
          unfold exec; rw [h1]; rfl
        rw [ex]
        have h4' : s.buf s.next = v := h4
        refine ⟨some v, ⟨ha, ?_⟩, Or.inl ⟨rfl, rfl⟩⟩
        rw [← h4']
        exact .saved (s := { s with tmp := s.cur, todo := [.publish, .restore] }) rfl h2 rfl
      | cons f fs =>
        have ex : exec s .step = { s with
            buf := fun b => if b = s.ptr then f (s.buf b) else s.buf b
            todo := fs.map .write ++ [.save, .publish, .restore] } := by
          unfold exec; rw [h1]; rfl
        rw [ex]
        refine ⟨some v, ⟨?_, .writing fs v rfl h2 h3 ?_⟩, Or.inl ⟨rfl, rfl⟩⟩
        · simpa [h3, hn] using ha
        · simpa [h3] using h4
    | saved h1 h2 h3 =>
      have ex : exec s .step = { s with
          cur := s.next, log := s.log ++ [.published (s.buf s.next)], todo := [.restore] } := by
        unfold exec; rw [h1]; rfl
      rw [ex]
      refine ⟨none, ⟨Spec.Atomic.published ha, .swapped rfl ?_⟩, Or.inr (Or.inl ⟨_, rfl, rfl, ?_⟩)⟩
      · show s.tmp = !s.next
        rw [h3, h2]; simp
      · simp [published_append, Spec.published]
    | swapped h1 h2 =>
      have ex : exec s .step = { s with next := s.tmp, todo := [] } := by
        unfold exec; rw [h1]; rfl
      rw [ex]
      exact ⟨none, ⟨ha, .idle rfl h2⟩, Or.inl ⟨rfl, rfl⟩⟩

/-- The commands that were accepted: those given while no call was in progress. -/
def accepted (s : St D) : List (Ev D) → List (List (D → D))
  | [] => []
  | .command fs :: es =>
    (if s.todo.isEmpty then [fs] else []) ++ accepted (exec s (.command fs)) es
  | e :: es => accepted (exec s e) es

theorem run_inv {x0 : D} (evs : List (Ev D)) : ∀ {s : St D} {pend : Option D}, Inv x0 s pend →
    (∀ fs, .command fs ∈ evs → ∃ v, Writes fs v) →
    ∃ pend' vs, Inv x0 (run s evs) pend' ∧ List.Forall₂ Writes (accepted s evs) vs ∧
      Spec.published (run s evs).log ++ pend'.toList =
        Spec.published s.log ++ pend.toList ++ vs := by
  induction evs with
  | nil => intro s pend h _; exact ⟨pend, [], h, .nil, by simp [run]⟩
  | cons e es ih =>
    intro s pend h hw
    obtain ⟨p1, h1, hc⟩ := inv_step h e (fun fs he => hw fs (by rw [he]; exact List.mem_cons_self ..))
    obtain ⟨p2, vs, h2, h3, h4⟩ := ih h1 (fun fs hfs => hw fs (List.mem_cons_of_mem _ hfs))
    have hr : run s (e :: es) = run (exec s e) es := rfl
    rw [hr]
    have hacc : (∀ fs, e = .command fs → s.todo ≠ []) → accepted s (e :: es) = accepted (exec s e) es := by
      intro hn
      cases e with
      | command fs => simp [accepted, hn fs rfl]
      | step => rfl
      | interrupt g => rfl
    rcases hc with ⟨c1, c2⟩ | ⟨v, c1, c2, c3⟩ | ⟨fs, v, rfl, c2, c3, c4, c5, c6⟩
    · subst c2
      by_cases hcase : ∃ fs, e = .command fs ∧ s.todo = []
      · exfalso
        obtain ⟨fs, rfl, hs⟩ := hcase
        obtain ⟨v, _⟩ := hw fs (List.mem_cons_self ..)
        have hp := h1.2
        have hp0 := h.2
        have ht : (exec s (.command fs)).todo = fs.map .write ++ [.save, .publish, .restore] := by
          simp [exec, hs]
        have : p1 = none := by
          cases hp0 with
          | idle => rfl
          | writing fs v g => rw [hs] at g; simp at g
          | saved g => rw [hs] at g; simp at g
          | swapped => rfl
        subst this
        generalize hq : (none : Option D) = q at hp
        cases hp with
        | idle g => rw [ht] at g; simp at g
        | writing => cases hq
        | saved => cases hq
        | swapped h =>
          rw [ht] at h
          have := congrArg List.length h
          simp at this
      · refine ⟨p2, vs, h2, ?_, by rw [h4, c1]⟩
        rw [hacc (fun fs he hs => hcase ⟨fs, he, hs⟩)]
        exact h3
    · subst c1 c2
      refine ⟨p2, vs, h2, ?_, by rw [h4, c3]; simp⟩
      rw [hacc]
      · exact h3
      · intro fs he hs
        have hp0 := h.2
        generalize hq : (some v : Option D) = q at hp0
        cases hp0 with
        | idle => cases hq
        | writing fs v g => rw [hs] at g; simp at g
        | saved g => rw [hs] at g; simp at g
        | swapped => cases hq
    · subst c4 c5
      refine ⟨p2, v :: vs, h2, ?_, by rw [h4, c6]; simp⟩
      have : accepted s (.command fs :: es) = fs :: accepted (exec s (.command fs)) es := by
        simp [accepted, c3]
      rw [this]
      exact .cons c2 h3

/-- **C85.** For every interleaving of the main loop and the interrupt, the interrupt
sees what it would see if commands were replaced at one instant: the last complete
command with its own changes since.  Commands become current in the order of the calls,
each once and with the value that its writes give; only the last may still be pending. -/
theorem C85_buffer (x y : D) (evs : List (Ev D))
    (hw : ∀ fs, .command fs ∈ evs → ∃ v, Writes fs v) :
    Spec.Atomic x (run (initial x y) evs).log ((run (initial x y) evs).buf (run (initial x y) evs).cur) ∧
    ∃ vs, List.Forall₂ Writes (accepted (initial x y) evs) vs ∧
      (Spec.published (run (initial x y) evs).log = vs ∨
        ((run (initial x y) evs).todo ≠ [] ∧ ∃ v,
          Spec.published (run (initial x y) evs).log ++ [v] = vs)) := by
  have h0 : Inv x (initial x y) none := ⟨Spec.Atomic.start x, .idle rfl rfl⟩
  obtain ⟨p, vs, h1, h2, h3⟩ := run_inv evs h0 hw
  refine ⟨h1.1, vs, h2, ?_⟩
  have h3' : Spec.published (run (initial x y) evs).log ++ p.toList = vs := by
    rw [h3]; simp [initial, Spec.published]
  cases p with
  | none => left; simpa using h3'
  | some v =>
    right
    refine ⟨?_, v, by simpa using h3'⟩
    intro ht
    have hp := h1.2
    generalize hq : (some v : Option D) = q at hp
    cases hp with
    | idle => cases hq
    | writing fs v g => rw [ht] at g; simp at g
    | saved g => rw [ht] at g; simp at g
    | swapped => cases hq

/-- A command of two members, with the interrupt in the middle of the writes and of the
exchange. -/
example : (run (initial (0, 0) (9, 9)) [.command [fun p => (5, p.2), fun p => (p.1, 7)], .step,
    .interrupt (fun p => (p.1 + 1, p.2)), .step, .step, .interrupt id, .step,
    .interrupt (fun p => (p.1, p.2 + 1)), .step, .interrupt id]).log =
    [.served (0, 0) (1, 0), .served (1, 0) (1, 0), .published (5, 7), .served (5, 7) (5, 8),
      .served (5, 8) (5, 8)] := by decide

example : Writes [fun p : ℕ × ℕ => (5, p.2), fun p => (p.1, 7)] (5, 7) := fun _ => rfl

end Verif.Fw.Buffer
