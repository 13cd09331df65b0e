import Verif.Fw.AuxPort
import Mathlib.Data.List.Nodup
import Mathlib.Data.Fintype.Basic
import Mathlib.Tactic.Linarith
import Mathlib.Tactic.FinCases

/-!
# Interrupts of pins (C93)

`Stm32GpioInterruptIn` (fw/stm32_gpio_interrupt_in.h): an object claims one of
the 16 interrupt lines for a pin and names a function with an argument.  All
edges end in one routine, which calls every function in a table of three.

The main loop claims and releases; an edge can come between any two of its
writes.  Its reads need no steps of their own, because the routine writes none
of these variables.

Simplified: registers are given bit by bit; the copy of a `Callback` writes its
members in their order; an edge that comes while its interrupt is off is
ignored, though the processor may remember it; the functions that are called
and the level that is read are not modelled here (C64).
-/

namespace Verif.Fw.PinIrq

/-- `PinName`: the port and the line, `STM_PORT` and `STM_PIN`. -/
structure Pin where
  port : ℕ
  line : Fin 16
  deriving DecidableEq

/-- A function and its argument; the function is not null. -/
structure Cb where
  fn : ℕ
  data : ℕ
  deriving DecidableEq

/-- stm32_gpio_interrupt_in.h:35-44. -/
structure Entry where
  fn : Option ℕ := none
  data : ℕ := 0
  ref : ℤ := 0
  deriving DecidableEq

/-- An object of the class that owns its pin: `pin_`, `entry_`; `cb` is what it
was made with. -/
structure Handle where
  pin : Pin
  entry : Fin 3
  cb : Cb
  deriving DecidableEq

/-- lines 194-200, `FindIrqIndex`. -/
def group (l : Fin 16) : Fin 7 :=
  if l.val ≤ 4 then ⟨l.val % 7, by omega⟩ else if l.val ≤ 9 then 5 else 6

/-- The table, the registers `IMR1`, `EXTICR`, `RTSR1` and `FTSR1`, the enabled
interrupts, `irq_count`, and the objects that own a pin. -/
structure Sys where
  entries : Fin 3 → Entry := fun _ => {}
  imr : Fin 16 → Bool := fun _ => false
  port : Fin 16 → ℕ := fun _ => 0
  edges : Fin 16 → Bool := fun _ => false
  nvic : Fin 7 → Bool := fun _ => false
  count : Fin 7 → ℤ := fun _ => 0
  live : List Handle := []

/-- One write of the main loop. -/
inductive Act
  | fn (i : Fin 3) (f : Option ℕ)
  | data (i : Fin 3) (d : ℕ)
  | zero (i : Fin 3)
  | inc (i : Fin 3)
  | dec (i : Fin 3)
  | select (l : Fin 16) (p : ℕ)
  | both (l : Fin 16)
  | mask (l : Fin 16) (b : Bool)
  | enable (g : Fin 7) (b : Bool)
  | up (g : Fin 7)
  | down (g : Fin 7)
  /-- the object is where its owner looks for it -/
  | own (h : Handle)
  /-- the destructor begins -/
  | disown (h : Handle)
  deriving DecidableEq

def setE (s : Sys) (i : Fin 3) (e : Entry) : Sys := { s with entries := Function.update s.entries i e }

def act (s : Sys) : Act → Sys
  | .fn i f => setE s i { s.entries i with fn := f }
  | .data i d => setE s i { s.entries i with data := d }
  | .zero i => setE s i { s.entries i with ref := 0 }
  | .inc i => setE s i { s.entries i with ref := (s.entries i).ref + 1 }
  | .dec i => setE s i { s.entries i with ref := (s.entries i).ref - 1 }
  | .select l p => { s with port := Function.update s.port l p }
  | .both l => { s with edges := Function.update s.edges l true }
  | .mask l b => { s with imr := Function.update s.imr l b }
  | .enable g b => { s with nvic := Function.update s.nvic g b }
  | .up g => { s with count := Function.update s.count g (s.count g + 1) }
  | .down g => { s with count := Function.update s.count g (s.count g - 1) }
  | .own h => { s with live := h :: s.live }
  | .disown h => { s with live := s.live.erase h }

def acts (s : Sys) (l : List Act) : Sys := l.foldl act s

/-- lines 176-183: the entry that has this function and argument. -/
def match? (s : Sys) (cb : Cb) : Option (Fin 3) :=
  (List.finRange 3).find? fun i => (s.entries i).fn = some cb.fn ∧ (s.entries i).data = cb.data

/-- lines 184-190: the first empty entry. -/
def empty? (s : Sys) : Option (Fin 3) := (List.finRange 3).find? fun i => (s.entries i).fn = none

/-- lines 112-141, after the entry was found, and line 62 with the assignment by
the owner. -/
def claim (s : Sys) (p : Pin) (cb : Cb) (i : Fin 3) : List Act :=
  [.inc i, .select p.line p.port, .both p.line, .mask p.line true] ++
  (if s.count (group p.line) = 0 then [.enable (group p.line) true] else []) ++
  [.up (group p.line), .own ⟨p, i, cb⟩]

/-- What a call has to do, or how it ends at once. -/
inductive Plan
  | go (l : List Act)
  /-- an empty `optional` is returned -/
  | refused
  /-- `entry_->ref_count++` with a null pointer -/
  | crash
  deriving DecidableEq

/-- lines 46-63, `Make`, with the constructor (84-142).  The test of line 57
comes after line 112. -/
def make (s : Sys) (p : Pin) (cb : Cb) : Plan :=
  if s.imr p.line then .refused
  else
    match match? s cb with
    | some i => .go (claim s p cb i)
    | none =>
      match empty? s with
      | some i => .go ([.fn i (some cb.fn), .data i cb.data, .zero i] ++ claim s p cb i)
      | none => .crash

/-- lines 144-169, the destructor. -/
def drop (s : Sys) (h : Handle) : List Act :=
  [.disown h, .dec h.entry, .mask h.pin.line false] ++
  (if s.count (group h.pin.line) = 1 then [.enable (group h.pin.line) false] else []) ++
  [.down (group h.pin.line)] ++
  (if (s.entries h.entry).ref = 1 then [.fn h.entry none, .data h.entry 0] else [])

/-- lines 215-223, `ISR_Routine`: the calls. -/
def isr (s : Sys) : List Cb :=
  (List.finRange 3).filterMap fun i => (s.entries i).fn.map fun f => ⟨f, (s.entries i).data⟩

/-- The hardware: the vector of each line (EXTI0 to EXTI4, EXTI9_5, EXTI15_10). -/
def vector (l : Fin 16) : Fin 7 :=
  [0, 1, 2, 3, 4, 5, 5, 5, 5, 5, 6, 6, 6, 6, 6, (6 : Fin 7)][l]

/-- The groups of the code are the vectors of the hardware. -/
theorem group_eq : ∀ l, group l = vector l := by decide

/-- What an edge at a pin causes.  The hardware: the line must be connected to
the port of the pin, sensitive and not masked, and its interrupt enabled. -/
def edge (s : Sys) (p : Pin) : List Cb :=
  if s.imr p.line ∧ s.edges p.line ∧ s.port p.line = p.port ∧ s.nvic (vector p.line) then isr s else []

/-- The main loop with what it still has to do. -/
structure St where
  sys : Sys := {}
  todo : List Act := []

inductive Ev
  | make (p : Pin) (cb : Cb)
  | drop (h : Handle)
  | step

/-- `none`: a null pointer is used.  Calls come one after the other, and only
objects that exist are released. -/
def exec (s : St) : Ev → Option St
  | .make p cb =>
    if s.todo = [] then
      match make s.sys p cb with
      | .go l => some { s with todo := l }
      | .refused => some s
      | .crash => none
    else some s
  | .drop h =>
    if s.todo = [] ∧ h ∈ s.sys.live then some { s with todo := drop s.sys h } else some s
  | .step =>
    match s.todo with
    | [] => some s
    | a :: l => some { sys := act s.sys a, todo := l }

def run : St → List Ev → Option St
  | s, [] => some s
  | s, e :: es => (exec s e).bind fun s' => run s' es

/-! ## Proof: between two calls -/

/-- What holds when no call is under way. -/
structure Inv (s : Sys) : Prop where
  lines : (s.live.map fun h => h.pin.line).Nodup
  imr : ∀ l, s.imr l = true ↔ ∃ h ∈ s.live, h.pin.line = l
  hw : ∀ h ∈ s.live, s.port h.pin.line = h.pin.port ∧ s.edges h.pin.line = true
  count : ∀ g, s.count g = (s.live.countP fun h => group h.pin.line = g : ℕ)
  nvic : ∀ g, s.nvic g = true ↔ s.count g ≠ 0
  ref : ∀ i, (s.entries i).ref = (s.live.countP fun h => h.entry = i : ℕ)
  free : ∀ i, (s.entries i).fn = none ↔ (s.entries i).ref = 0
  cb : ∀ h ∈ s.live, (s.entries h.entry).fn = some h.cb.fn ∧ (s.entries h.entry).data = h.cb.data
  distinct : ∀ i j f, (s.entries i).fn = some f → (s.entries j).fn = some f →
    (s.entries i).data = (s.entries j).data → i = j

theorem inv_initial : Inv {} where
  lines := by simp
  imr := by simp
  hw := by simp
  count := by simp
  nvic := by simp
  ref := by simp
  free := by simp
  cb := by simp
  distinct := by simp

theorem entry_owned {s : Sys} (H : Inv s) {i : Fin 3} {f : ℕ} (h : (s.entries i).fn = some f) :
    ∃ x ∈ s.live, x.entry = i ∧ x.cb = ⟨f, (s.entries i).data⟩ := by
  have h1 : (s.entries i).ref ≠ 0 := by
    intro e
    rw [← H.free i] at e
    rw [e] at h; cases h
  rw [H.ref i] at h1
  have h2 : 0 < s.live.countP fun h => h.entry = i := by
    rcases Nat.eq_zero_or_pos (s.live.countP fun h => h.entry = i) with e | e
    · rw [e] at h1; simp at h1
    · exact e
  rw [List.countP_pos_iff] at h2
  obtain ⟨x, hx, e⟩ := h2
  simp only [decide_eq_true_eq] at e
  refine ⟨x, hx, e, ?_⟩
  have := H.cb x hx
  rw [e, h] at this
  obtain ⟨h3, h4⟩ := this
  cases hc : x.cb with
  | mk a b =>
    rw [hc] at h3 h4
    simp only [Option.some.injEq] at h3
    simp only [Cb.mk.injEq]
    exact ⟨h3.symm, h4.symm⟩

/-- The state after a successful `make`. -/
theorem match_some {s : Sys} {cb : Cb} {i : Fin 3} (h : match? s cb = some i) :
    (s.entries i).fn = some cb.fn ∧ (s.entries i).data = cb.data := by
  have := List.find?_some h
  simpa using this

theorem match_none {s : Sys} {cb : Cb} (h : match? s cb = none) (i : Fin 3) :
    ¬ ((s.entries i).fn = some cb.fn ∧ (s.entries i).data = cb.data) := by
  unfold match? at h
  rw [List.find?_eq_none] at h
  have := h i (List.mem_finRange i)
  simpa using this

theorem empty_some {s : Sys} {i : Fin 3} (h : empty? s = some i) : (s.entries i).fn = none := by
  have := List.find?_some h
  simpa using this

theorem empty_none {s : Sys} (h : empty? s = none) (i : Fin 3) : (s.entries i).fn ≠ none := by
  unfold empty? at h
  rw [List.find?_eq_none] at h
  have := h i (List.mem_finRange i)
  simpa using this

/-- The state after the pin was claimed with entry `i`, whose content is `e`. -/
def claimed (s : Sys) (p : Pin) (cb : Cb) (i : Fin 3) (e : Entry) : Sys where
  entries := Function.update s.entries i e
  imr := Function.update s.imr p.line true
  port := Function.update s.port p.line p.port
  edges := Function.update s.edges p.line true
  nvic := if s.count (group p.line) = 0 then Function.update s.nvic (group p.line) true else s.nvic
  count := Function.update s.count (group p.line) (s.count (group p.line) + 1)
  live := ⟨p, i, cb⟩ :: s.live

theorem acts_claim (s : Sys) (p : Pin) (cb : Cb) (i : Fin 3) :
    acts s (claim s p cb i) = claimed s p cb i { s.entries i with ref := (s.entries i).ref + 1 } := by
  unfold claim claimed acts
  split <;> simp [act, setE]

theorem acts_claim_new (s : Sys) (p : Pin) (cb : Cb) (i : Fin 3) :
    acts s ([.fn i (some cb.fn), .data i cb.data, .zero i] ++ claim s p cb i) =
      claimed s p cb i ⟨some cb.fn, cb.data, 1⟩ := by
  unfold claim claimed acts
  split <;> simp [act, setE]

theorem inv_claimed {s : Sys} (H : Inv s) {p : Pin} {cb : Cb} {i : Fin 3} {e : Entry}
    (hl : s.imr p.line = false) (he : e.fn = some cb.fn ∧ e.data = cb.data)
    (hr : e.ref = (s.entries i).ref + 1)
    (hc : ((s.entries i).fn = some cb.fn ∧ (s.entries i).data = cb.data) ∨
      ((s.entries i).fn = none ∧ ∀ j, ¬ ((s.entries j).fn = some cb.fn ∧ (s.entries j).data = cb.data))) :
    Inv (claimed s p cb i e) := by
  have hnew : ∀ h ∈ s.live, h.pin.line ≠ p.line := by
    intro h hh e
    have := (H.imr p.line).2 ⟨h, hh, e⟩
    rw [hl] at this; cases this
  have hpos : ∀ j, 0 ≤ (s.entries j).ref := fun j => by rw [H.ref j]; exact Int.natCast_nonneg _
  have hcp : ∀ g, 0 ≤ s.count g := fun g => by rw [H.count g]; exact Int.natCast_nonneg _
  refine ⟨?_, ?_, ?_, ?_, ?_, ?_, ?_, ?_, ?_⟩
  · simp only [claimed, List.map_cons, List.nodup_cons]
    refine ⟨?_, H.lines⟩
    rw [List.mem_map]
    rintro ⟨h, hh, e⟩
    exact hnew h hh e
  · intro l
    simp only [claimed, Function.update_apply, List.mem_cons, exists_eq_or_imp]
    by_cases e : l = p.line
    · simp [e]
    · rw [if_neg e, H.imr l]
      simp [Ne.symm e]
  · intro h hh
    simp only [claimed, List.mem_cons] at hh ⊢
    rcases hh with rfl | hh
    · simp
    · have := hnew h hh
      simp [this, H.hw h hh]
  · intro g
    simp only [claimed, Function.update_apply, List.countP_cons]
    by_cases e : g = group p.line
    · subst e; simp [H.count]
    · rw [if_neg e, H.count]; simp [Ne.symm e]
  · intro g
    have h1 := H.nvic g
    have h2 := hcp g
    simp only [claimed, Function.update_apply]
    by_cases e : g = group p.line
    · subst e
      by_cases e0 : s.count (group p.line) = 0
      · simp [e0]
      · rw [if_neg e0, if_pos rfl, h1]
        constructor
        · intro; omega
        · intro; exact e0
    · rw [if_neg e]
      by_cases e0 : s.count (group p.line) = 0
      · rw [if_pos e0, Function.update_apply, if_neg e, h1]
      · rw [if_neg e0, h1]
  · intro j
    simp only [claimed, Function.update_apply, List.countP_cons]
    by_cases e : j = i
    · subst e; simp [hr, H.ref]
    · rw [if_neg e, H.ref]; simp [Ne.symm e]
  · intro j
    simp only [claimed, Function.update_apply]
    by_cases e' : j = i
    · subst e'
      rw [if_pos rfl, he.1, hr]
      have := hpos j
      constructor
      · intro h; cases h
      · intro h; omega
    · rw [if_neg e', H.free]
  · intro h hh
    simp only [claimed, List.mem_cons] at hh ⊢
    rcases hh with rfl | hh
    · simp [he]
    · by_cases e' : h.entry = i
      · have h1 := H.cb h hh
        rw [e'] at h1 ⊢
        rcases hc with hc | hc
        · rw [Function.update_self, he.1, he.2, ← hc.1, ← hc.2]; exact h1
        · rw [hc.1] at h1; cases h1.1
      · rw [Function.update_of_ne e']
        exact H.cb h hh
  · intro a b f ha hb hd
    simp only [claimed, Function.update_apply] at ha hb hd
    by_cases ea : a = i
    · by_cases eb : b = i
      · rw [ea, eb]
      · rw [if_pos ea] at ha hd
        rw [if_neg eb] at hb hd
        rcases hc with hc | hc
        · rw [ea]
          refine H.distinct i b f ?_ hb ?_
          · rw [hc.1, ← he.1, ha]
          · rw [hc.2, ← he.2, hd]
        · exfalso
          refine hc.2 b ⟨?_, ?_⟩
          · rw [hb, ← ha, he.1]
          · rw [← hd, he.2]
    · by_cases eb : b = i
      · rw [if_neg ea] at ha hd
        rw [if_pos eb] at hb hd
        rcases hc with hc | hc
        · rw [eb]
          refine H.distinct a i f ha ?_ ?_
          · rw [hc.1, ← he.1, hb]
          · rw [hc.2, ← he.2, hd]
        · exfalso
          refine hc.2 a ⟨?_, ?_⟩
          · rw [ha, ← hb, he.1]
          · rw [hd, he.2]
      · rw [if_neg ea] at ha hd
        rw [if_neg eb] at hb hd
        exact H.distinct a b f ha hb hd

theorem inv_make {s : Sys} (H : Inv s) {p : Pin} {cb : Cb} {l : List Act} (h : make s p cb = .go l) :
    Inv (acts s l) := by
  unfold make at h
  by_cases hl : s.imr p.line = true
  · rw [if_pos hl] at h; cases h
  rw [if_neg hl] at h
  have hl : s.imr p.line = false := by simpa using hl
  cases hm : match? s cb with
  | some i =>
    rw [hm] at h
    cases h
    rw [acts_claim]
    exact inv_claimed H hl (match_some hm) rfl (Or.inl (match_some hm))
  | none =>
    rw [hm] at h
    cases he : empty? s with
    | none => rw [he] at h; cases h
    | some i =>
      rw [he] at h
      cases h
      rw [acts_claim_new]
      have h0 := empty_some he
      refine inv_claimed H hl ⟨rfl, rfl⟩ ?_ (Or.inr ⟨h0, match_none hm⟩)
      rw [(H.free i).1 h0]
      rfl

/-- The state after a release. -/
def released (s : Sys) (h : Handle) : Sys where
  entries := Function.update s.entries h.entry
    (if (s.entries h.entry).ref = 1 then ⟨none, 0, 0⟩
     else { s.entries h.entry with ref := (s.entries h.entry).ref - 1 })
  imr := Function.update s.imr h.pin.line false
  port := s.port
  edges := s.edges
  nvic := if s.count (group h.pin.line) = 1 then Function.update s.nvic (group h.pin.line) false
    else s.nvic
  count := Function.update s.count (group h.pin.line) (s.count (group h.pin.line) - 1)
  live := s.live.erase h

theorem acts_drop (s : Sys) (h : Handle) : acts s (drop s h) = released s h := by
  unfold drop released acts
  split <;> split <;> rename_i h1 h2 <;> simp [act, setE, h2]

theorem countP_erase {l : List Handle} {h : Handle} (hh : h ∈ l) (q : Handle → Bool) :
    l.countP q = (l.erase h).countP q + if q h then 1 else 0 := by
  rw [List.Perm.countP_eq q (List.perm_cons_erase hh), List.countP_cons]

theorem inv_drop {s : Sys} (H : Inv s) {h : Handle} (hh : h ∈ s.live) : Inv (acts s (drop s h)) := by
  rw [acts_drop]
  have hperm := List.perm_cons_erase hh
  have hsub : ∀ x ∈ s.live.erase h, x ∈ s.live := fun x hx => List.mem_of_mem_erase hx
  have hnd : ((h :: s.live.erase h).map fun x => x.pin.line).Nodup :=
    (hperm.map (fun x : Handle => x.pin.line)).nodup_iff.1 H.lines
  rw [List.map_cons, List.nodup_cons] at hnd
  have hne : ∀ x ∈ s.live.erase h, x.pin.line ≠ h.pin.line := by
    intro x hx e
    exact hnd.1 (List.mem_map.2 ⟨x, hx, e⟩)
  have hcount : ∀ q : Handle → Bool, (s.live.countP q : ℤ) =
      ((s.live.erase h).countP q : ℕ) + if q h then 1 else 0 := by
    intro q
    rw [countP_erase hh q]
    split <;> simp
  refine ⟨?_, ?_, ?_, ?_, ?_, ?_, ?_, ?_, ?_⟩
  · exact hnd.2
  · intro l
    simp only [released, Function.update_apply]
    by_cases e : l = h.pin.line
    · rw [if_pos e]
      constructor
      · intro h'; cases h'
      · rintro ⟨x, hx, ex⟩
        exact absurd (ex.trans e) (hne x hx)
    · rw [if_neg e, H.imr l]
      constructor
      · rintro ⟨x, hx, ex⟩
        refine ⟨x, ?_, ex⟩
        rcases List.mem_cons.1 (hperm.mem_iff.1 hx) with rfl | h'
        · exact absurd ex.symm e
        · exact h'
      · rintro ⟨x, hx, ex⟩
        exact ⟨x, hsub x hx, ex⟩
  · intro x hx
    exact H.hw x (hsub x hx)
  · intro g
    simp only [released, Function.update_apply]
    have := hcount fun x => group x.pin.line = g
    by_cases e : g = group h.pin.line
    · subst e
      rw [if_pos rfl, H.count, this]; simp
    · rw [if_neg e, H.count, this]; simp [Ne.symm e]
  · intro g
    simp only [released, Function.update_apply]
    by_cases e : g = group h.pin.line
    · subst e
      by_cases e1 : s.count (group h.pin.line) = 1
      · simp [e1]
      · rw [if_neg e1, if_pos rfl, H.nvic]
        have h1 : s.count (group h.pin.line) ≠ 0 := by
          rw [H.count, hcount]
          simp only [decide_true, if_true]
          omega
        constructor
        · intro; omega
        · intro; exact h1
    · rw [if_neg e]
      by_cases e1 : s.count (group h.pin.line) = 1
      · rw [if_pos e1, Function.update_apply, if_neg e, H.nvic]
      · rw [if_neg e1, H.nvic]
  · intro i
    simp only [released, Function.update_apply]
    have := hcount fun x => x.entry = i
    by_cases e : i = h.entry
    · subst e
      rw [if_pos rfl]
      have hr := H.ref h.entry
      rw [this] at hr
      simp only [decide_true, if_true] at hr
      split
      · rename_i e1; simp only; omega
      · simp only; omega
    · rw [if_neg e, H.ref, this]; simp [Ne.symm e]
  · intro i
    simp only [released, Function.update_apply]
    by_cases e : i = h.entry
    · subst e
      rw [if_pos rfl]
      split
      · simp
      · rename_i e1
        have h1 := H.cb h hh
        simp only [h1.1]
        constructor
        · intro h'; cases h'
        · intro h'; omega
    · rw [if_neg e, H.free]
  · intro x hx
    have h1 := H.cb x (hsub x hx)
    simp only [released]
    by_cases e : x.entry = h.entry
    · rw [e] at h1 ⊢
      rw [Function.update_self]
      have hr := H.ref h.entry
      rw [hcount] at hr
      simp only [decide_true, if_true] at hr
      have h2 : 0 < (s.live.erase h).countP fun y => y.entry = h.entry := by
        rw [List.countP_pos_iff]
        exact ⟨x, hx, by simpa using e⟩
      rw [if_neg (by omega)]
      exact h1
    · rw [Function.update_of_ne e]
      exact h1
  · intro a b f ha hb hd
    have key : ∀ j, ((released s h).entries j).fn = some f →
        (s.entries j).fn = some f ∧ ((released s h).entries j).data = (s.entries j).data := by
      intro j hj
      simp only [released, Function.update_apply] at hj ⊢
      by_cases e : j = h.entry
      · rw [if_pos e] at hj ⊢
        split at hj
        · cases hj
        · rename_i e1
          rw [if_neg e1, e]
          exact ⟨hj, rfl⟩
      · rw [if_neg e] at hj ⊢
        exact ⟨hj, rfl⟩
    obtain ⟨ha1, ha2⟩ := key a ha
    obtain ⟨hb1, hb2⟩ := key b hb
    rw [ha2, hb2] at hd
    exact H.distinct a b f ha1 hb1 hd

/-! ## Proof: in the middle of a call -/

/-- The pin of the object is connected to its function. -/
structure Ok (s : Sys) (h : Handle) : Prop where
  imr : s.imr h.pin.line = true
  edges : s.edges h.pin.line = true
  port : s.port h.pin.line = h.pin.port
  nvic : s.nvic (group h.pin.line) = true
  fn : (s.entries h.entry).fn = some h.cb.fn
  data : (s.entries h.entry).data = h.cb.data

theorem ok_of_inv {s : Sys} (H : Inv s) {h : Handle} (hh : h ∈ s.live) : Ok s h where
  imr := (H.imr _).2 ⟨h, hh, rfl⟩
  edges := (H.hw h hh).2
  port := (H.hw h hh).1
  nvic := by
    rw [H.nvic, H.count]
    have : 0 < s.live.countP fun x => group x.pin.line = group h.pin.line := by
      rw [List.countP_pos_iff]
      exact ⟨h, hh, by simp⟩
    omega
  fn := (H.cb h hh).1
  data := (H.cb h hh).2

theorem Ok.called {s : Sys} {h : Handle} (k : Ok s h) : h.cb ∈ edge s h.pin := by
  unfold edge
  rw [if_pos ⟨k.imr, k.edges, k.port, by rw [← group_eq]; exact k.nvic⟩]
  unfold isr
  rw [List.mem_filterMap]
  refine ⟨h.entry, List.mem_finRange _, ?_⟩
  rw [k.fn, k.data]
  rfl

/-- A write that leaves the connection of `h` alone. -/
def Harmless (h : Handle) : Act → Prop
  | .fn i _ => i ≠ h.entry
  | .data i _ => i ≠ h.entry
  | .select l _ => l ≠ h.pin.line
  | .mask l _ => l ≠ h.pin.line
  | .enable g b => b = true ∨ g ≠ group h.pin.line
  | _ => True

theorem Ok.act {s : Sys} {h : Handle} {a : Act} (k : Ok s h) (ha : Harmless h a) :
    Ok (PinIrq.act s a) h := by
  obtain ⟨h1, h2, h3, h4, h5, h6⟩ := k
  cases a <;> simp only [Harmless] at ha <;> simp only [PinIrq.act, setE]
  case fn i f => exact ⟨h1, h2, h3, h4, by simp [Function.update_of_ne (Ne.symm ha), h5],
    by simp [Function.update_of_ne (Ne.symm ha), h6]⟩
  case data i d => exact ⟨h1, h2, h3, h4, by simp [Function.update_of_ne (Ne.symm ha), h5],
    by simp [Function.update_of_ne (Ne.symm ha), h6]⟩
  case zero i =>
    refine ⟨h1, h2, h3, h4, ?_, ?_⟩ <;> simp only [Function.update_apply] <;> split <;> rename_i e
    · rw [← e]; exact h5
    · exact h5
    · rw [← e]; exact h6
    · exact h6
  case inc i =>
    refine ⟨h1, h2, h3, h4, ?_, ?_⟩ <;> simp only [Function.update_apply] <;> split <;> rename_i e
    · rw [← e]; exact h5
    · exact h5
    · rw [← e]; exact h6
    · exact h6
  case dec i =>
    refine ⟨h1, h2, h3, h4, ?_, ?_⟩ <;> simp only [Function.update_apply] <;> split <;> rename_i e
    · rw [← e]; exact h5
    · exact h5
    · rw [← e]; exact h6
    · exact h6
  case select l p => exact ⟨h1, h2, by simp [Function.update_of_ne (Ne.symm ha), h3], h4, h5, h6⟩
  case both l =>
    refine ⟨h1, ?_, h3, h4, h5, h6⟩
    simp only [Function.update_apply]
    split
    · rfl
    · exact h2
  case mask l b => exact ⟨by simp [Function.update_of_ne (Ne.symm ha), h1], h2, h3, h4, h5, h6⟩
  case enable g b =>
    refine ⟨h1, h2, h3, ?_, h5, h6⟩
    simp only [Function.update_apply]
    split
    · rename_i e
      rcases ha with ha | ha
      · exact ha
      · exact absurd e.symm ha
    · exact h4
  case up g => exact ⟨h1, h2, h3, h4, h5, h6⟩
  case down g => exact ⟨h1, h2, h3, h4, h5, h6⟩
  case own x => exact ⟨h1, h2, h3, h4, h5, h6⟩
  case disown x => exact ⟨h1, h2, h3, h4, h5, h6⟩

theorem Ok.acts {h : Handle} : ∀ {l : List Act} {s : Sys}, Ok s h → (∀ a ∈ l, Harmless h a) →
    Ok (PinIrq.acts s l) h
  | [], _, k, _ => k
  | a :: l, s, k, hl => by
    have h1 := k.act (hl a (by simp))
    have := Ok.acts (l := l) h1 (fun a ha => hl a (by simp [ha]))
    exact this

theorem harmless_claim {s : Sys} (_H : Inv s) {p : Pin} {cb : Cb} {i : Fin 3} {h : Handle}
    (hne : h.pin.line ≠ p.line) : ∀ a ∈ claim s p cb i, Harmless h a := by
  intro a ha
  unfold claim at ha
  split at ha <;> simp only [List.cons_append, List.nil_append, List.mem_cons, List.not_mem_nil, or_false] at ha
  · rcases ha with rfl | rfl | rfl | rfl | rfl | rfl | rfl <;> simp [Harmless, Ne.symm hne]
  · rcases ha with rfl | rfl | rfl | rfl | rfl | rfl <;> simp [Harmless, Ne.symm hne]

theorem harmless_make {s : Sys} (H : Inv s) {p : Pin} {cb : Cb} {l : List Act}
    (hm : make s p cb = .go l) {h : Handle} (hh : h ∈ s.live) : ∀ a ∈ l, Harmless h a := by
  unfold make at hm
  by_cases hl : s.imr p.line = true
  · rw [if_pos hl] at hm; cases hm
  rw [if_neg hl] at hm
  have hne : h.pin.line ≠ p.line := fun e => hl ((H.imr _).2 ⟨h, hh, e⟩)
  cases hq : match? s cb with
  | some i =>
    rw [hq] at hm
    cases hm
    exact harmless_claim H hne
  | none =>
    rw [hq] at hm
    cases he : empty? s with
    | none => rw [he] at hm; cases hm
    | some i =>
      rw [he] at hm
      cases hm
      have h0 : i ≠ h.entry := by
        intro e
        have := empty_some he
        rw [e, (H.cb h hh).1] at this
        cases this
      intro a ha
      rcases List.mem_append.1 ha with ha | ha
      · simp only [List.mem_cons, List.not_mem_nil, or_false] at ha
        rcases ha with rfl | rfl | rfl <;> simp [Harmless, h0]
      · exact harmless_claim H hne a ha

theorem two_of_ne {l : List Handle} {x y : Handle} (hx : x ∈ l) (hy : y ∈ l.erase x) (q : Handle → Bool)
    (qx : q x = true) (qy : q y = true) : 2 ≤ l.countP q := by
  rw [countP_erase hx q, qx]
  have : 0 < (l.erase x).countP q := by
    rw [List.countP_pos_iff]
    exact ⟨y, hy, qy⟩
  simp only [if_true]
  omega

theorem harmless_drop {s : Sys} (H : Inv s) {x h : Handle} (hx : x ∈ s.live) (hh : h ∈ s.live.erase x) :
    ∀ a ∈ drop s x, Harmless h a := by
  have hne : h.pin.line ≠ x.pin.line := by
    have := ((List.perm_cons_erase hx).map (fun x : Handle => x.pin.line)).nodup_iff.1 H.lines
    rw [List.map_cons, List.nodup_cons] at this
    intro e
    exact this.1 (List.mem_map.2 ⟨h, hh, e⟩)
  intro a ha
  unfold drop at ha
  simp only [List.mem_append, List.mem_cons, List.not_mem_nil, or_false] at ha
  rcases ha with (((rfl | rfl | rfl) | ha) | rfl) | ha
  · trivial
  · trivial
  · exact Ne.symm hne
  · split at ha
    · rename_i e
      simp only [List.mem_cons, List.not_mem_nil, or_false] at ha
      subst ha
      refine Or.inr fun e' => ?_
      have := two_of_ne hx hh (fun y => group y.pin.line = group x.pin.line) (by simp) (by simp [e'])
      rw [H.count] at e
      omega
    · cases ha
  · trivial
  · split at ha
    · rename_i e
      have h0 : x.entry ≠ h.entry := by
        intro e'
        have := two_of_ne hx hh (fun y => y.entry = x.entry) (by simp) (by simp [e'])
        rw [H.ref] at e
        omega
      simp only [List.mem_cons, List.not_mem_nil, or_false] at ha
      rcases ha with rfl | rfl <;> exact h0
    · cases ha

/-- What the main loop may be doing. -/
def Plans (b : Sys) (l : List Act) : Prop :=
  l = [] ∨ (∃ h ∈ b.live, l = drop b h) ∨ ∃ p cb, make b p cb = .go l

theorem Plans.inv {b : Sys} {l : List Act} (H : Inv b) (h : Plans b l) : Inv (acts b l) := by
  rcases h with rfl | ⟨h, hh, rfl⟩ | ⟨p, cb, hm⟩
  · exact H
  · exact inv_drop H hh
  · exact inv_make H hm

/-- Some of what a call writes has been written. -/
def Good (s : St) : Prop :=
  ∃ b l, Inv b ∧ Plans b (l ++ s.todo) ∧ s.sys = acts b l

theorem Good.inv {s : St} (h : Good s) (ht : s.todo = []) : Inv s.sys := by
  obtain ⟨b, l, H, hp, e⟩ := h
  rw [ht, List.append_nil] at hp
  rw [e]
  exact hp.inv H

theorem Good.exec {s s' : St} (h : Good s) {e : Ev} (he : exec s e = some s') : Good s' := by
  cases e with
  | make p cb =>
    simp only [PinIrq.exec] at he
    by_cases ht : s.todo = []
    · rw [if_pos ht] at he
      cases hm : make s.sys p cb with
      | go l =>
        rw [hm] at he
        cases he
        exact ⟨s.sys, [], h.inv ht, Or.inr (Or.inr ⟨p, cb, by simpa using hm⟩), rfl⟩
      | refused => rw [hm] at he; cases he; exact h
      | crash => rw [hm] at he; cases he
    · rw [if_neg ht] at he; cases he; exact h
  | drop x =>
    simp only [PinIrq.exec] at he
    split at he
    · rename_i ht
      cases he
      exact ⟨s.sys, [], h.inv ht.1, Or.inr (Or.inl ⟨x, ht.2, by simp⟩), rfl⟩
    · cases he; exact h
  | step =>
    simp only [PinIrq.exec] at he
    cases ht : s.todo with
    | nil => rw [ht] at he; cases he; exact h
    | cons a r =>
      rw [ht] at he
      cases he
      obtain ⟨b, l, H, hp, e⟩ := h
      refine ⟨b, l ++ [a], H, ?_, ?_⟩
      · rw [ht] at hp
        simpa using hp
      · simp [acts, e]

theorem Good.run {evs : List Ev} : ∀ {s s' : St}, Good s → run s evs = some s' → Good s' := by
  induction evs with
  | nil => intro s s' h hr; cases hr; exact h
  | cons e es ih =>
    intro s s' h hr
    simp only [PinIrq.run] at hr
    cases he : PinIrq.exec s e with
    | none => rw [he] at hr; cases hr
    | some t =>
      rw [he] at hr
      exact ih (h.exec he) hr

theorem good_initial : Good {} := ⟨{}, [], inv_initial, Or.inl rfl, rfl⟩

theorem live_acts {l : List Act} : ∀ {s : Sys}, (∀ a ∈ l, ∀ h, a ≠ .own h ∧ a ≠ .disown h) →
    (acts s l).live = s.live := by
  induction l with
  | nil => intro s _; rfl
  | cons a l ih =>
    intro s h
    have h1 : (acts s (a :: l)).live = (act s a).live := ih (s := act s a) fun a ha => h a (by simp [ha])
    rw [h1]
    have := h a (by simp)
    cases a <;> first | rfl | skip
    · rename_i x; exact absurd rfl (this x).1
    · rename_i x; exact absurd rfl (this x).2

theorem claim_last (s : Sys) (p : Pin) (cb : Cb) (i : Fin 3) (pre : List Act)
    (hp : ∀ a ∈ pre, ∀ h, a ≠ Act.own h ∧ a ≠ Act.disown h) :
    ∀ a ∈ (pre ++ claim s p cb i).dropLast, ∀ h, a ≠ Act.own h ∧ a ≠ Act.disown h := by
  have : ∃ m, claim s p cb i = m ++ [.own ⟨p, i, cb⟩] ∧ ∀ a ∈ m, ∀ h, a ≠ Act.own h ∧ a ≠ Act.disown h := by
    unfold claim
    split
    · exact ⟨[.inc i, .select p.line p.port, .both p.line, .mask p.line true,
          .enable (group p.line) true, .up (group p.line)], rfl, by
        intro a ha h
        simp only [List.mem_cons, List.not_mem_nil, or_false] at ha
        rcases ha with rfl | rfl | rfl | rfl | rfl | rfl <;> simp⟩
    · exact ⟨[.inc i, .select p.line p.port, .both p.line, .mask p.line true, .up (group p.line)], rfl, by
        intro a ha h
        simp only [List.mem_cons, List.not_mem_nil, or_false] at ha
        rcases ha with rfl | rfl | rfl | rfl | rfl <;> simp⟩
  obtain ⟨m, e, hm⟩ := this
  rw [e, ← List.append_assoc, List.dropLast_concat]
  intro a ha
  rcases List.mem_append.1 ha with ha | ha
  · exact hp a ha
  · exact hm a ha

theorem Good.ok {s : St} (G : Good s) {h : Handle} (hh : h ∈ s.sys.live) : Ok s.sys h := by
  by_cases ht : s.todo = []
  · exact ok_of_inv (G.inv ht) hh
  obtain ⟨b, l, H, hp, e⟩ := G
  rw [e] at hh ⊢
  rcases hp with hp | ⟨x, hx, hp⟩ | ⟨p, cb, hm⟩
  · simp only [List.append_eq_nil_iff] at hp
    exact absurd hp.2 ht
  · cases l with
    | nil => exact ok_of_inv H hh
    | cons a l =>
      have h1 : a = .disown x := by
        have := congrArg List.head? hp
        simpa [drop] using this
      have h2 : ∀ a ∈ l, ∀ h, a ≠ Act.own h ∧ a ≠ Act.disown h := by
        intro a' ha' y
        have h3 : a' ∈ (drop b x).tail := by
          rw [← hp]
          simp [ha']
        unfold drop at h3
        simp only [List.cons_append, List.tail_cons, List.nil_append, List.mem_append, List.mem_cons,
          List.not_mem_nil, or_false] at h3
        rcases h3 with rfl | rfl | (h3 | rfl) | h3
        · simp
        · simp
        · split at h3
          · simp only [List.mem_cons, List.not_mem_nil, or_false] at h3
            subst h3; simp
          · cases h3
        · simp
        · split at h3
          · simp only [List.mem_cons, List.not_mem_nil, or_false] at h3
            rcases h3 with rfl | rfl <;> simp
          · cases h3
      have h3 : h ∈ b.live.erase x := by
        have : (acts b (a :: l)).live = (act b a).live := live_acts h2
        rw [this, h1] at hh
        exact hh
      refine (ok_of_inv H (List.mem_of_mem_erase h3)).acts fun a' ha' => ?_
      refine harmless_drop H hx h3 a' ?_
      rw [← hp]
      exact List.mem_append_left _ ha'
  · have h2 : ∀ a ∈ l, ∀ h, a ≠ Act.own h ∧ a ≠ Act.disown h := by
      intro a ha
      have h3 : a ∈ (l ++ s.todo).dropLast := by
        rw [List.dropLast_append_of_ne_nil ht]
        exact List.mem_append_left _ ha
      have h4 := hm
      unfold make at h4
      split at h4
      · cases h4
      · split at h4
        · rw [Plan.go.injEq] at h4
          rw [← h4] at h3
          exact claim_last b p cb _ [] (by simp) a (by simpa using h3)
        · split at h4
          · rw [Plan.go.injEq] at h4
            rw [← h4] at h3
            refine claim_last b p cb _ _ ?_ a h3
            intro a ha h
            simp only [List.mem_cons, List.not_mem_nil, or_false] at ha
            rcases ha with rfl | rfl | rfl <;> simp
          · cases h4
    rw [live_acts h2] at hh
    refine (ok_of_inv H hh).acts fun a ha => ?_
    exact harmless_make H hm hh a (List.mem_append_left _ ha)

end Verif.Fw.PinIrq
