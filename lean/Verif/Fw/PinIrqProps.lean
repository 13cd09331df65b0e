import Verif.Fw.PinIrq
import Verif.Fw.AuxPortProps
import Mathlib.Data.List.Dedup
import Mathlib.Data.Finset.Card
import Mathlib.Data.List.Perm.Basic

/-!
# Interrupts of pins: results (C93)
-/

namespace Verif.Fw.PinIrq

theorem good_of {evs : List Ev} {s : St} (h : run {} evs = some s) : Good s := good_initial.run h

/-! ## Specification -/

/-- The functions that the owners of pins want to be called, each once. -/
def Spec.wanted (l : List Handle) : List Cb := (l.map Handle.cb).dedup

/-! ## Calls -/

/-- **C93.** In every state that calls of `Make` and releases lead to, also in
the middle of one of them, an edge at a pin calls the function of its owner. -/
theorem C93_served {evs : List Ev} {s : St} (hr : run {} evs = some s) {h : Handle}
    (hh : h ∈ s.sys.live) : h.cb ∈ edge s.sys h.pin := ((good_of hr).ok hh).called

theorem mem_isr {s : Sys} (H : Inv s) (cb : Cb) : cb ∈ isr s ↔ ∃ h ∈ s.live, h.cb = cb := by
  unfold isr
  rw [List.mem_filterMap]
  constructor
  · rintro ⟨i, _, e⟩
    cases hf : (s.entries i).fn with
    | none => rw [hf] at e; cases e
    | some f =>
      rw [hf] at e
      simp only [Option.map_some, Option.some.injEq] at e
      obtain ⟨x, hx, _, ex⟩ := entry_owned H hf
      exact ⟨x, hx, ex.trans e⟩
  · rintro ⟨h, hh, rfl⟩
    refine ⟨h.entry, List.mem_finRange _, ?_⟩
    rw [(H.cb h hh).1, (H.cb h hh).2]
    rfl

theorem isr_nodup {s : Sys} (H : Inv s) : (isr s).Nodup := by
  unfold isr
  refine List.Nodup.filterMap ?_ (List.nodup_finRange 3)
  intro i j cb hi hj
  simp only [Option.mem_def] at hi hj
  cases hf : (s.entries i).fn with
  | none => rw [hf] at hi; cases hi
  | some f =>
    cases hg : (s.entries j).fn with
    | none => rw [hg] at hj; cases hj
    | some g =>
      rw [hf] at hi
      rw [hg] at hj
      simp only [Option.map_some, Option.some.injEq] at hi hj
      have := hi.trans hj.symm
      simp only [Cb.mk.injEq] at this
      obtain ⟨h1, h2⟩ := this
      rw [← h1] at hg
      exact H.distinct i j f hf hg h2

theorem isr_perm {s : Sys} (H : Inv s) : (isr s).Perm (Spec.wanted s.live) := by
  unfold Spec.wanted
  rw [List.perm_ext_iff_of_nodup (isr_nodup H) (List.nodup_dedup _)]
  intro cb
  rw [mem_isr H, List.mem_dedup, List.mem_map]

/-- **C93.** Between two calls, an edge at a pin that is owned calls the
functions of all owners, each once, and an edge at any other pin calls
nothing. -/
theorem C93_calls {evs : List Ev} {s : St} (hr : run {} evs = some s) (ht : s.todo = []) (p : Pin) :
    ((∃ h ∈ s.sys.live, h.pin = p) → (edge s.sys p).Perm (Spec.wanted s.sys.live)) ∧
    ((∀ h ∈ s.sys.live, h.pin ≠ p) → edge s.sys p = []) := by
  have H := (good_of hr).inv ht
  constructor
  · rintro ⟨h, hh, rfl⟩
    have k := ok_of_inv H hh
    unfold edge
    rw [if_pos ⟨k.imr, k.edges, k.port, by rw [← group_eq]; exact k.nvic⟩]
    exact isr_perm H
  · intro hn
    unfold edge
    rw [if_neg]
    rintro ⟨h1, _, h3, _⟩
    obtain ⟨h, hh, e⟩ := (H.imr _).1 h1
    refine hn h hh ?_
    have := (H.hw h hh).1
    rw [e, h3] at this
    cases hp : h.pin with
    | mk a b =>
      rw [hp] at e this
      cases p
      simp_all

/-- **C93.** Once all pins are released, all lines are masked, all interrupts
are off and no function is left. -/
theorem C93_idle {evs : List Ev} {s : St} (hr : run {} evs = some s) (ht : s.todo = [])
    (hl : s.sys.live = []) :
    (∀ l, s.sys.imr l = false) ∧ (∀ g, s.sys.nvic g = false) ∧ ∀ i, (s.sys.entries i).fn = none := by
  have H := (good_of hr).inv ht
  refine ⟨fun l => ?_, fun g => ?_, fun i => ?_⟩
  · rw [Bool.eq_false_iff, Ne, H.imr, hl]; simp
  · rw [Bool.eq_false_iff, Ne, H.nvic, H.count, hl]; simp
  · rw [H.free, H.ref, hl]; simp

/-! ## Claims -/

theorem isr_length_le (s : Sys) : (isr s).length ≤ 3 := by
  unfold isr
  refine (List.length_filterMap_le _ _).trans ?_
  simp

theorem isr_length_lt {s : Sys} {i : Fin 3} (h : (s.entries i).fn = none) : (isr s).length < 3 := by
  unfold isr
  have h1 : (List.finRange 3).Perm (i :: (List.finRange 3).erase i) :=
    List.perm_cons_erase (List.mem_finRange i)
  rw [(h1.filterMap _).length_eq, List.filterMap_cons, h]
  simp only [Option.map_none]
  refine lt_of_le_of_lt (List.length_filterMap_le _ _) ?_
  rw [List.length_erase_of_mem (List.mem_finRange i)]
  simp

theorem isr_full {s : Sys} (h : ∀ i, (s.entries i).fn ≠ none) : (isr s).length = 3 := by
  have h0 := Option.ne_none_iff_exists'.1 (h 0)
  have h1 := Option.ne_none_iff_exists'.1 (h 1)
  have h2 := Option.ne_none_iff_exists'.1 (h 2)
  obtain ⟨a, ha⟩ := h0
  obtain ⟨b, hb⟩ := h1
  obtain ⟨c, hc⟩ := h2
  unfold isr
  have : List.finRange 3 = [0, 1, 2] := by decide
  rw [this]
  simp [ha, hb, hc]

/-- How `make` ends, between two calls. -/
theorem make_cases {s : Sys} (H : Inv s) (p : Pin) (cb : Cb) :
    ((∃ h ∈ s.live, h.pin.line = p.line) ∧ make s p cb = .refused) ∨
    ((∀ h ∈ s.live, h.pin.line ≠ p.line) ∧ (cb ∈ Spec.wanted s.live ∨ (Spec.wanted s.live).length < 3) ∧
      ∃ l i, make s p cb = .go l ∧ (acts s l).live = ⟨p, i, cb⟩ :: s.live) ∨
    ((∀ h ∈ s.live, h.pin.line ≠ p.line) ∧ cb ∉ Spec.wanted s.live ∧ (Spec.wanted s.live).length = 3 ∧
      make s p cb = .crash) := by
  unfold make
  by_cases hl : s.imr p.line = true
  · exact Or.inl ⟨(H.imr _).1 hl, by rw [if_pos hl]⟩
  · rw [if_neg hl]
    refine Or.inr ?_
    have hn : ∀ h ∈ s.live, h.pin.line ≠ p.line := fun h hh e => hl ((H.imr _).2 ⟨h, hh, e⟩)
    have hw : ∀ c, c ∈ Spec.wanted s.live ↔ c ∈ isr s := fun c => (isr_perm H).mem_iff.symm
    cases hm : match? s cb with
    | some i =>
      refine Or.inl ⟨hn, Or.inl ?_, claim s p cb i, i, rfl, by rw [acts_claim]; rfl⟩
      rw [hw]
      unfold isr
      rw [List.mem_filterMap]
      refine ⟨i, List.mem_finRange _, ?_⟩
      rw [(match_some hm).1, (match_some hm).2]
      rfl
    | none =>
      have h0 : cb ∉ Spec.wanted s.live := by
        rw [hw]
        unfold isr
        rw [List.mem_filterMap]
        rintro ⟨i, _, e⟩
        refine match_none hm i ?_
        cases hf : (s.entries i).fn with
        | none => rw [hf] at e; cases e
        | some f =>
          rw [hf] at e
          simp only [Option.map_some, Option.some.injEq] at e
          rw [← e]
          exact ⟨rfl, rfl⟩
      cases he : empty? s with
      | some i =>
        refine Or.inl ⟨hn, Or.inr ?_, _, i, rfl, by rw [acts_claim_new]; rfl⟩
        rw [← (isr_perm H).length_eq]
        exact isr_length_lt (empty_some he)
      | none =>
        refine Or.inr ⟨hn, h0, ?_, rfl⟩
        rw [← (isr_perm H).length_eq]
        exact isr_full (empty_none he)

theorem run_steps : ∀ (l : List Act) (s : Sys), run ⟨s, l⟩ (List.replicate l.length .step) = some ⟨acts s l, []⟩
  | [], _ => rfl
  | a :: l, s => by
    simp only [List.length_cons, List.replicate_succ, run, exec, Option.bind_some]
    exact run_steps l (act s a)

/-- **C93.** Between two calls, `Make` is refused exactly if the line of the pin,
which it shares with the pins of the same number of other ports, is claimed; it
uses a null pointer exactly if the table is full of other functions; else the
pin is owned when it has ended. -/
theorem C93_make {evs : List Ev} {s : St} (hr : run {} evs = some s) (ht : s.todo = []) (p : Pin) (cb : Cb) :
    ((∃ h ∈ s.sys.live, h.pin.line = p.line) → exec s (.make p cb) = some s) ∧
    ((∀ h ∈ s.sys.live, h.pin.line ≠ p.line) →
      ((cb ∈ Spec.wanted s.sys.live ∨ (Spec.wanted s.sys.live).length < 3) →
        ∃ n s' i, run s (.make p cb :: List.replicate n .step) = some s' ∧ s'.todo = [] ∧
          s'.sys.live = ⟨p, i, cb⟩ :: s.sys.live) ∧
      (cb ∉ Spec.wanted s.sys.live → 3 ≤ (Spec.wanted s.sys.live).length →
        exec s (.make p cb) = none)) := by
  have H := (good_of hr).inv ht
  have h1 := make_cases H p cb
  refine ⟨fun hx => ?_, fun hx => ⟨fun hw => ?_, fun hw hw' => ?_⟩⟩
  · obtain ⟨x, hx, ex⟩ := hx
    rcases h1 with ⟨_, h1⟩ | ⟨h1, _⟩ | ⟨h1, _⟩
    · simp only [exec, if_pos ht, h1]
    · exact absurd ex (h1 x hx)
    · exact absurd ex (h1 x hx)
  · rcases h1 with ⟨⟨x, h1, e⟩, _⟩ | ⟨_, _, l, i, hm, hl⟩ | ⟨_, h1, h2, _⟩
    · exact absurd e (hx x h1)
    · refine ⟨l.length, ⟨acts s.sys l, []⟩, i, ?_, rfl, hl⟩
      simp only [run, exec, if_pos ht, hm, Option.bind_some]
      exact run_steps l s.sys
    · rcases hw with hw | hw
      · exact absurd hw h1
      · omega
  · rcases h1 with ⟨⟨x, h1, e⟩, _⟩ | ⟨_, h1, _⟩ | ⟨_, _, _, h1⟩
    · exact absurd e (hx x h1)
    · rcases h1 with h1 | h1
      · exact absurd h1 hw
      · omega
    · simp only [exec, if_pos ht, h1]

/-- **C93.** A release ends with the pin free and all others still owned. -/
theorem C93_release {evs : List Ev} {s : St} (_hr : run {} evs = some s) (ht : s.todo = []) {h : Handle}
    (hh : h ∈ s.sys.live) :
    ∃ n s', run s (.drop h :: List.replicate n .step) = some s' ∧ s'.todo = [] ∧
      s'.sys.live = s.sys.live.erase h := by
  refine ⟨(drop s.sys h).length, ⟨acts s.sys (drop s.sys h), []⟩, ?_, rfl, by rw [acts_drop]; rfl⟩
  simp only [run, exec, if_pos (And.intro ht hh), Option.bind_some]
  exact run_steps _ s.sys

/-! ## Counterexamples -/

/-- The pins of the ports of the boards n1 and c1, families 1 and 2: the first
row of each (fw/moteus_controller.cc:361-445). -/
def pinOf (hw : Aux.Hw) (i : Fin 5) : Option Pin :=
  (Aux.firstRow hw i).map fun r => ⟨r.mbed / 16, ⟨r.mbed % 16, by omega⟩⟩

def pa5 : Pin := ⟨0, 5⟩
def pb4 : Pin := ⟨1, 4⟩
def pa7 : Pin := ⟨0, 7⟩
def pf1 : Pin := ⟨5, 1⟩
def pa10 : Pin := ⟨0, 10⟩
def pa11 : Pin := ⟨0, 11⟩

example : [0, 1, 2].map (pinOf (Aux.aux1Family12 true)) = [some pa5, some pb4, some pa7] ∧
    [0, 1, 2].map (pinOf Aux.aux2Family12) = [some pf1, some pa10, some pa11] := by
  decide +kernel

def steps : List Ev := List.replicate 12 .step

/-- Two owners of three pins; the hypotheses of the theorems above. -/
example : ∃ s, run {} ([.make pa5 ⟨0, 100⟩] ++ steps ++ [.make pb4 ⟨0, 100⟩] ++ steps ++
    [.make pa7 ⟨1, 200⟩] ++ steps) = some s ∧ s.todo = [] ∧
    s.sys.live = [⟨pa7, 1, ⟨1, 200⟩⟩, ⟨pb4, 0, ⟨0, 100⟩⟩, ⟨pa5, 0, ⟨0, 100⟩⟩] ∧
    edge s.sys pb4 = [⟨0, 100⟩, ⟨1, 200⟩] ∧ edge s.sys ⟨2, 4⟩ = [] := by
  obtain ⟨s, e, h⟩ := Aux.wit (o := run {} ([.make pa5 ⟨0, 100⟩] ++ steps ++ [.make pb4 ⟨0, 100⟩] ++ steps ++
    [.make pa7 ⟨1, 200⟩] ++ steps))
    (fun s => decide (s.todo = [] ∧
      s.sys.live = [⟨pa7, 1, ⟨1, 200⟩⟩, ⟨pb4, 0, ⟨0, 100⟩⟩, ⟨pa5, 0, ⟨0, 100⟩⟩] ∧
      edge s.sys pb4 = [⟨0, 100⟩, ⟨1, 200⟩] ∧ edge s.sys ⟨2, 4⟩ = [])) (by decide +kernel)
  exact ⟨s, e, by simpa using h⟩

/-- A function is called before its owner has the object: the interrupt is on
before `Make` returns, and `a_->read()` uses an empty `optional`. -/
theorem C93_early_refuted : ∃ evs s, run {} evs = some s ∧
    edge s.sys pa5 = [⟨0, 100⟩] ∧ s.sys.live = [] := by
  obtain ⟨s, e, h⟩ := Aux.wit (o := run {} (.make pa5 ⟨0, 100⟩ :: List.replicate 8 .step))
    (fun s => decide (edge s.sys pa5 = [⟨0, 100⟩] ∧ s.sys.live = [])) (by decide +kernel)
  exact ⟨_, s, e, by simpa using h⟩

/-- While a second owner is entered, an edge at a pin of the first calls the
function of the second with the argument 0. -/
theorem C93_torn_refuted : ∃ evs s, run {} evs = some s ∧
    (∀ p c, Ev.make p c ∈ evs → c.data ≠ 0) ∧ (⟨1, 0⟩ : Cb) ∈ edge s.sys pa5 := by
  obtain ⟨s, e, h⟩ := Aux.wit (o := run {} ([.make pa5 ⟨0, 100⟩] ++ steps ++ [.make pf1 ⟨1, 200⟩, .step]))
    (fun s => decide ((⟨1, 0⟩ : Cb) ∈ edge s.sys pa5)) (by decide +kernel)
  refine ⟨_, s, e, ?_, by simpa using h⟩
  intro p c hc
  simp only [steps, List.cons_append, List.nil_append, List.mem_append, List.mem_cons, Ev.make.injEq,
    List.mem_replicate, reduceCtorEq, and_false, false_or, or_false, List.not_mem_nil] at hc
  rcases hc with ⟨_, rfl⟩ | ⟨_, rfl⟩ <;> simp

/-! ## The two ports -/

/-- What a configuration asks for, after the tests of `quadMake` and `indexLoop`
(`Fw/AuxPort.lean`): the pins for a quadrature input by software and for an
index. -/
structure Req where
  quad : Option (Pin × Pin) := none
  index : Option Pin := none

/-- `quad_` and `index_` of a port, as far as they own pins. -/
structure Objs where
  quad : Option (Handle × Handle) := none
  index : Option Handle := none

structure Ports where
  sys : Sys := {}
  obj : Fin 2 → Objs := fun _ => {}

/-- The delegates with the addresses of the objects, which are members of the
ports. -/
def quadCb (p : Fin 2) : Cb := ⟨0, 100 + p⟩
def indexCb (p : Fin 2) : Cb := ⟨1, 200 + p⟩

/-- The pins in the order of their release: `b_` before `a_`, aux_port.h:815, 816. -/
def pair : Option (Handle × Handle) → List Handle
  | some (a, b) => [b, a]
  | none => []

def Objs.handles (o : Objs) : List Handle := pair o.quad ++ o.index.toList

/-- A whole release. -/
def releaseAll (s : Sys) (l : List Handle) : Sys := l.foldl (fun s h => acts s (drop s h)) s

/-- A whole `Make`: the object, if any; `none` is the null pointer. -/
def makeAll (s : Sys) (p : Pin) (cb : Cb) : Option (Sys × Option Handle) :=
  match make s p cb with
  | .go l => some (acts s l, (acts s l).live.head?)
  | .refused => some (s, none)
  | .crash => none

/-- aux_mbed.h:138-154 and aux_port.h:1046-1055: without the second pin the
first is given back. -/
def makeQuad (s : Sys) (p : Fin 2) : Option (Pin × Pin) → Option (Sys × Option (Handle × Handle))
  | none => some (s, none)
  | some (a, b) =>
    match makeAll s a (quadCb p) with
    | none => none
    | some (s, none) => some (s, none)
    | some (s, some ha) =>
      match makeAll s b (quadCb p) with
      | none => none
      | some (s, none) => some (acts s (drop s ha), none)
      | some (s, some hb) => some (s, some (ha, hb))

/-- aux_mbed.h:315-323 and aux_port.h:1057-1065. -/
def makeIndex (s : Sys) (p : Fin 2) : Option Pin → Option (Sys × Option Handle)
  | none => some (s, none)
  | some i => makeAll s i (indexCb p)

/-- The pins in `HandleConfigUpdate`. -/
def update (x : Ports) (p : Fin 2) (r : Req) : Option Ports :=
  match makeQuad (releaseAll x.sys (x.obj p).handles) p r.quad with
  | none => none
  | some (s, q) =>
    match makeIndex s p r.index with
    | none => none
    | some (s, i) => some ⟨s, Function.update x.obj p ⟨q, i⟩⟩

def updates : Ports → List (Fin 2 × Req) → Option Ports
  | x, [] => some x
  | x, (p, r) :: l => (update x p r).bind fun x => updates x l

/-! ### Specification -/

/-- The lines that a port holds. -/
def Spec.held (o : Objs) : List (Fin 16) := o.handles.map fun h => h.pin.line

/-- The pins of a quadrature input can be had. -/
def Spec.quadFree (held : List (Fin 16)) (a b : Pin) : Prop :=
  a.line ∉ held ∧ b.line ∉ held ∧ a.line ≠ b.line

/-- What a port should own afterwards; the other holds the lines `held`. -/
structure Spec.Has (held : List (Fin 16)) (r : Req) (o : Objs) : Prop where
  quad : ∀ a b, (∃ ha hb, o.quad = some (ha, hb) ∧ ha.pin = a ∧ hb.pin = b) ↔
    r.quad = some (a, b) ∧ Spec.quadFree held a b
  index : ∀ i, (∃ h, o.index = some h ∧ h.pin = i) ↔
    r.index = some i ∧ i.line ∉ held ∧ ∀ ha hb, o.quad = some (ha, hb) → i.line ≠ ha.pin.line ∧ i.line ≠ hb.pin.line

/-- Both objects are there. -/
def Spec.both (o : Objs) : Prop := o.quad ≠ none ∧ o.index ≠ none

/-! ### Proof -/

def other (p : Fin 2) : Fin 2 := if p = 0 then 1 else 0

structure Objs.Mine (p : Fin 2) (o : Objs) : Prop where
  quad : ∀ a b, o.quad = some (a, b) → a.cb = quadCb p ∧ b.cb = quadCb p
  index : ∀ h, o.index = some h → h.cb = indexCb p

structure PInv (x : Ports) : Prop where
  inv : Inv x.sys
  live : ∀ p, x.sys.live.Perm ((x.obj p).handles ++ (x.obj (other p)).handles)
  mine : ∀ p, (x.obj p).Mine p

theorem releaseAll_inv : ∀ (l : List Handle) {s : Sys} {rest : List Handle}, Inv s → s.live.Perm (l ++ rest) →
    Inv (releaseAll s l) ∧ (releaseAll s l).live.Perm rest
  | [], _, _, H, hp => ⟨H, hp⟩
  | h :: l, s, rest, H, hp => by
    have hh : h ∈ s.live := hp.mem_iff.2 (by simp)
    have h1 : (acts s (drop s h)).live.Perm (l ++ rest) := by
      rw [acts_drop]
      have := hp.erase h
      simpa [released] using this
    exact releaseAll_inv l (inv_drop H hh) h1

theorem makeAll_cases {s : Sys} (H : Inv s) (p : Pin) (cb : Cb) :
    ((∃ h ∈ s.live, h.pin.line = p.line) ∧ makeAll s p cb = some (s, none)) ∨
    ((∀ h ∈ s.live, h.pin.line ≠ p.line) ∧ (cb ∈ Spec.wanted s.live ∨ (Spec.wanted s.live).length < 3) ∧
      ∃ s' i, makeAll s p cb = some (s', some ⟨p, i, cb⟩) ∧ Inv s' ∧ s'.live = ⟨p, i, cb⟩ :: s.live) ∨
    ((∀ h ∈ s.live, h.pin.line ≠ p.line) ∧ cb ∉ Spec.wanted s.live ∧ (Spec.wanted s.live).length = 3 ∧
      makeAll s p cb = none) := by
  rcases make_cases H p cb with ⟨h1, h2⟩ | ⟨h1, h2, l, i, h3, h4⟩ | ⟨h1, h2, h3, h4⟩
  · exact Or.inl ⟨h1, by simp only [makeAll, h2]⟩
  · refine Or.inr (Or.inl ⟨h1, h2, acts s l, i, ?_, inv_make H h3, h4⟩)
    simp only [makeAll, h3, h4, List.head?_cons]
  · exact Or.inr (Or.inr ⟨h1, h2, h3, by simp only [makeAll, h4]⟩)

theorem wanted_perm {l m : List Handle} (h : l.Perm m) : (Spec.wanted l).Perm (Spec.wanted m) :=
  (h.map Handle.cb).dedup

theorem mem_wanted {l : List Handle} {c : Cb} : c ∈ Spec.wanted l ↔ ∃ h ∈ l, h.cb = c := by
  simp [Spec.wanted, List.mem_dedup]

theorem wanted_cons_mem {l : List Handle} {h : Handle} (hc : h.cb ∈ Spec.wanted l) :
    Spec.wanted (h :: l) = Spec.wanted l := by
  unfold Spec.wanted at *
  rw [List.map_cons, List.dedup_cons_of_mem (List.mem_dedup.1 hc)]

theorem wanted_cons_not_mem {l : List Handle} {h : Handle} (hc : h.cb ∉ Spec.wanted l) :
    (Spec.wanted (h :: l)).length = (Spec.wanted l).length + 1 := by
  unfold Spec.wanted at *
  rw [List.map_cons, List.dedup_cons_of_notMem (fun h => hc (List.mem_dedup.2 h)), List.length_cons]

theorem cb_ne (p : Fin 2) : quadCb p ≠ quadCb (other p) ∧ quadCb p ≠ indexCb (other p) ∧
    indexCb p ≠ quadCb (other p) ∧ indexCb p ≠ indexCb (other p) ∧ indexCb p ≠ quadCb p := by
  revert p; decide

theorem mine_cb {p : Fin 2} {o : Objs} (m : o.Mine p) {h : Handle} (hh : h ∈ o.handles) :
    h.cb = quadCb p ∨ h.cb = indexCb p := by
  unfold Objs.handles at hh
  rcases List.mem_append.1 hh with hh | hh
  · cases hq : o.quad with
    | none => rw [hq] at hh; cases hh
    | some ab =>
      obtain ⟨a, b⟩ := ab
      rw [hq] at hh
      simp only [pair, List.mem_cons, List.not_mem_nil, or_false] at hh
      have := m.quad a b hq
      rcases hh with rfl | rfl
      · exact Or.inl this.2
      · exact Or.inl this.1
  · rw [Option.mem_toList] at hh
    exact Or.inr (m.index h hh)

/-- One function for each object. -/
theorem wanted_objs {p : Fin 2} {o : Objs} (m : o.Mine p) :
    (Spec.wanted o.handles).length = (if o.quad = none then 0 else 1) + (if o.index = none then 0 else 1) := by
  obtain ⟨q, i⟩ := o
  have hne := (cb_ne p).2.2.2.2
  cases q with
  | none =>
    cases i with
    | none => rfl
    | some h => simp [Objs.handles, pair, Spec.wanted]
  | some ab =>
    obtain ⟨a, b⟩ := ab
    have hq := m.quad a b rfl
    cases i with
    | none => simp [Objs.handles, pair, Spec.wanted, hq.1, hq.2]
    | some h =>
      have hi := m.index h rfl
      simp only [Objs.handles, pair, Spec.wanted, hq.1, hq.2, hi, List.map_cons,
        Option.toList_some, List.cons_append, List.nil_append, List.map_nil]
      rw [List.dedup_cons_of_mem (by simp), List.dedup_cons_of_notMem (by simp [Ne.symm hne])]
      simp

theorem held_iff {R : List Handle} {s : Sys} (hp : s.live.Perm R) (l : Fin 16) :
    (∃ h ∈ s.live, h.pin.line = l) ↔ l ∈ R.map fun h => h.pin.line := by
  rw [List.mem_map]
  constructor
  · rintro ⟨h, hh, e⟩; exact ⟨h, hp.mem_iff.1 hh, e⟩
  · rintro ⟨h, hh, e⟩; exact ⟨h, hp.mem_iff.2 hh, e⟩

theorem makeQuad_spec {s : Sys} (H : Inv s) {p : Fin 2} {R : List Handle} (hp : s.live.Perm R)
    (h2 : (Spec.wanted R).length ≤ 2) (r : Option (Pin × Pin)) :
    ∃ s' q, makeQuad s p r = some (s', q) ∧ Inv s' ∧
      s'.live.Perm (pair q ++ R) ∧
      (∀ a b, q = some (a, b) → a.cb = quadCb p ∧ b.cb = quadCb p) ∧
      ∀ a b, (∃ ha hb, q = some (ha, hb) ∧ ha.pin = a ∧ hb.pin = b) ↔
        r = some (a, b) ∧ Spec.quadFree (R.map fun h => h.pin.line) a b := by
  cases r with
  | none => exact ⟨s, none, rfl, H, hp, by simp, by simp⟩
  | some ab =>
    obtain ⟨a, b⟩ := ab
    have hlen : (Spec.wanted s.live).length ≤ 2 := by rw [(wanted_perm hp).length_eq]; exact h2
    rcases makeAll_cases H a (quadCb p) with ⟨h1, e1⟩ | ⟨h1, _, s1, i, e1, H1, l1⟩ | ⟨_, _, h3, _⟩
    · refine ⟨s, none, by simp only [makeQuad, e1], H, hp, by simp, ?_⟩
      intro a' b'
      rw [held_iff hp] at h1
      constructor
      · rintro ⟨_, _, h, _⟩; cases h
      · rintro ⟨h, k, _, _⟩
        cases h
        exact absurd h1 k
    · have ha : a.line ∉ R.map fun h => h.pin.line := by
        rw [← held_iff hp]
        rintro ⟨h, hh, e⟩
        exact h1 h hh e
      have hp1 : s1.live.Perm (⟨a, i, quadCb p⟩ :: R) := by rw [l1]; exact hp.cons _
      rcases makeAll_cases H1 b (quadCb p) with ⟨h2, e2⟩ | ⟨h2, _, s2, j, e2, H2, l2⟩ | ⟨_, h2, _, _⟩
      · have hr := releaseAll_inv [⟨a, i, quadCb p⟩] (rest := R) H1 hp1
        refine ⟨_, none, by simp only [makeQuad, e1, e2]; rfl, hr.1, hr.2, by simp, ?_⟩
        intro a' b'
        rw [held_iff hp1] at h2
        constructor
        · rintro ⟨_, _, h, _⟩; cases h
        · rintro ⟨h, _, k1, k2⟩
          cases h
          simp only [List.map_cons, List.mem_cons] at h2
          rcases h2 with h2 | h2
          · exact absurd h2.symm k2
          · exact absurd h2 k1
      · have hb : b.line ≠ a.line ∧ b.line ∉ R.map fun h => h.pin.line := by
          have : b.line ∉ (⟨a, i, quadCb p⟩ :: R).map fun h => h.pin.line := by
            rw [← held_iff hp1]
            rintro ⟨h, hh, e⟩
            exact h2 h hh e
          simpa using this
        refine ⟨s2, some (⟨a, i, quadCb p⟩, ⟨b, j, quadCb p⟩), by simp only [makeQuad, e1, e2], H2, ?_, ?_, ?_⟩
        · rw [l2]; exact hp1.cons _
        · rintro _ _ h
          cases h
          exact ⟨rfl, rfl⟩
        · intro a' b'
          constructor
          · rintro ⟨_, _, h, h3, h4⟩
            cases h
            subst h3 h4
            exact ⟨rfl, ha, hb.2, Ne.symm hb.1⟩
          · rintro ⟨h, _⟩
            cases h
            exact ⟨_, _, rfl, rfl, rfl⟩
      · refine absurd ?_ h2
        rw [mem_wanted, l1]
        exact ⟨_, List.mem_cons_self, rfl⟩
    · omega

theorem wanted_with_quad {p : Fin 2} {q : Option (Handle × Handle)} {R : List Handle}
    (hq : ∀ a b, q = some (a, b) → a.cb = quadCb p ∧ b.cb = quadCb p) (hR : quadCb p ∉ Spec.wanted R) :
    (Spec.wanted (pair q ++ R)).length =
      (if q = none then 0 else 1) + (Spec.wanted R).length := by
  cases q with
  | none => simp [pair]
  | some ab =>
    obtain ⟨a, b⟩ := ab
    have h := hq a b rfl
    have h1 : a.cb ∉ Spec.wanted R := by rw [h.1]; exact hR
    have h2 : b.cb ∈ Spec.wanted (a :: R) := by
      rw [mem_wanted]
      exact ⟨a, List.mem_cons_self, by rw [h.1, h.2]⟩
    simp only [pair, List.cons_append, List.nil_append]
    rw [wanted_cons_mem h2, wanted_cons_not_mem h1]
    simp [Nat.add_comm]

/-- The whole update: its end, and what is kept. -/
theorem update_spec {x : Ports} (X : PInv x) (p : Fin 2) (r : Req) :
    (∃ a b i, Spec.both (x.obj (other p)) ∧ r.quad = some (a, b) ∧ r.index = some i ∧
      Spec.quadFree (Spec.held (x.obj (other p))) a b ∧ i.line ∉ Spec.held (x.obj (other p)) ∧
      i.line ≠ a.line ∧ i.line ≠ b.line ∧ update x p r = none) ∨
    ((¬ ∃ a b i, Spec.both (x.obj (other p)) ∧ r.quad = some (a, b) ∧ r.index = some i ∧
      Spec.quadFree (Spec.held (x.obj (other p))) a b ∧ i.line ∉ Spec.held (x.obj (other p)) ∧
      i.line ≠ a.line ∧ i.line ≠ b.line) ∧
     ∃ x', update x p r = some x' ∧ PInv x' ∧ x'.obj (other p) = x.obj (other p) ∧
      Spec.Has (Spec.held (x.obj (other p))) r (x'.obj p)) := by
  have hop : other p ≠ p := by revert p; decide
  have hoo : other (other p) = p := by revert p; decide
  set R := (x.obj (other p)).handles with hR
  have hm := X.mine (other p)
  have hwR := wanted_objs hm
  rw [← hR] at hwR
  have hqR : quadCb p ∉ Spec.wanted R := by
    rw [mem_wanted]
    rintro ⟨h, hh, e⟩
    rcases mine_cb hm hh with h1 | h1
    · exact (cb_ne p).1 (e.symm.trans h1)
    · exact (cb_ne p).2.1 (e.symm.trans h1)
  have hiR : indexCb p ∉ Spec.wanted R := by
    rw [mem_wanted]
    rintro ⟨h, hh, e⟩
    rcases mine_cb hm hh with h1 | h1
    · exact (cb_ne p).2.2.1 (e.symm.trans h1)
    · exact (cb_ne p).2.2.2.1 (e.symm.trans h1)
  have h2 : (Spec.wanted R).length ≤ 2 := by
    rw [hwR]; split <;> split <;> omega
  obtain ⟨H0, hp0⟩ := releaseAll_inv (x.obj p).handles (rest := R) X.inv (X.live p)
  obtain ⟨s1, q, e1, H1, hp1, hq, hqs⟩ := makeQuad_spec H0 (p := p) hp0 h2 r.quad
  have hw1 := wanted_with_quad hq hqR
  set L := pair q ++ R with hL
  have hi1 : indexCb p ∉ Spec.wanted L := by
    rw [mem_wanted]
    rintro ⟨h, hh, e⟩
    rw [hL] at hh
    rcases List.mem_append.1 hh with hh | hh
    · cases q with
      | none => cases hh
      | some ab =>
        obtain ⟨a, b⟩ := ab
        have hc := hq a b rfl
        simp only [pair, List.mem_cons, List.not_mem_nil, or_false] at hh
        rcases hh with rfl | rfl
        · exact (cb_ne p).2.2.2.2 (e.symm.trans hc.2)
        · exact (cb_ne p).2.2.2.2 (e.symm.trans hc.1)
    · exact hiR (mem_wanted.2 ⟨h, hh, e⟩)
  have hline : ∀ l : Fin 16, l ∈ L.map (fun h => h.pin.line) ↔
      l ∈ Spec.held (x.obj (other p)) ∨ ∃ ha hb, q = some (ha, hb) ∧ (l = ha.pin.line ∨ l = hb.pin.line) := by
    intro l
    rw [hL, List.map_append, List.mem_append]
    cases q with
    | none => simp [Spec.held, hR, pair]
    | some ab =>
      obtain ⟨a, b⟩ := ab
      simp only [pair, List.map_cons, List.map_nil, List.mem_cons, List.not_mem_nil, or_false, Spec.held,
        Option.some.injEq, Prod.mk.injEq, ← hR]
      constructor
      · rintro ((h | h) | h)
        · exact Or.inr ⟨a, b, ⟨rfl, rfl⟩, Or.inr h⟩
        · exact Or.inr ⟨a, b, ⟨rfl, rfl⟩, Or.inl h⟩
        · exact Or.inl h
      · rintro (h | ⟨_, _, ⟨rfl, rfl⟩, h | h⟩)
        · exact Or.inr h
        · exact Or.inl (Or.inr h)
        · exact Or.inl (Or.inl h)
  have fin : ∀ (s2 : Sys) (i : Option Handle), makeIndex s1 p r.index = some (s2, i) → Inv s2 →
      s2.live.Perm (i.toList ++ L) → (∀ h, i = some h → h.cb = indexCb p) →
      (∀ k, (∃ h, i = some h ∧ h.pin = k) ↔
        r.index = some k ∧ k.line ∉ Spec.held (x.obj (other p)) ∧
          ∀ ha hb, q = some (ha, hb) → k.line ≠ ha.pin.line ∧ k.line ≠ hb.pin.line) →
      ∃ x', update x p r = some x' ∧ PInv x' ∧ x'.obj (other p) = x.obj (other p) ∧
        Spec.Has (Spec.held (x.obj (other p))) r (x'.obj p) := by
    intro s2 i e2 H2 hp2 hi his
    refine ⟨⟨s2, Function.update x.obj p ⟨q, i⟩⟩, by simp only [update, e1, e2], ⟨H2, ?_, ?_⟩, ?_, ?_⟩
    · have hmine : s2.live.Perm ((⟨q, i⟩ : Objs).handles ++ R) := by
        refine hp2.trans ?_
        rw [hL, ← List.append_assoc]
        refine List.Perm.append_right R ?_
        exact List.perm_append_comm
      intro p'
      by_cases e : p' = p
      · subst e
        simp only [Function.update_self, Function.update_of_ne hop]
        exact hmine
      · have : p' = other p := by
          have key : ∀ a b : Fin 2, ¬ a = b → a = other b := by decide
          exact key p' p e
        subst this
        rw [hoo]
        simp only [Function.update_self, Function.update_of_ne hop]
        exact hmine.trans List.perm_append_comm
    · intro p'
      by_cases e : p' = p
      · subst e
        simp only [Function.update_self]
        exact ⟨hq, hi⟩
      · simp only [Function.update_of_ne e]
        exact X.mine p'
    · simp only [Function.update_of_ne hop]
    · simp only [Function.update_self]
      exact ⟨hqs, his⟩
  cases hri : r.index with
  | none =>
    refine Or.inr ⟨by simp, ?_⟩
    refine fin s1 none (by rw [hri]; rfl) H1 (by simpa using hp1) (by simp) ?_
    intro k
    rw [hri]
    simp
  | some k =>
    rcases makeAll_cases H1 k (indexCb p) with ⟨h3, e3⟩ | ⟨h3, h4, s2, j, e3, H2, l2⟩ | ⟨h3, _, h4, e3⟩
    · rw [held_iff hp1, hline] at h3
      refine Or.inr ⟨?_, fin s1 none (by rw [hri]; exact e3) H1 (by simpa using hp1) (by simp) ?_⟩
      · rintro ⟨a, b, k', _, hqa, hk, hf, hh, hka, hkb⟩
        cases hk
        obtain ⟨ha, hb, rfl, rfl, rfl⟩ := (hqs a b).2 ⟨hqa, hf⟩
        rcases h3 with h3 | ⟨_, _, e, h3⟩
        · exact hh h3
        · cases e
          rcases h3 with h3 | h3
          · exact hka h3
          · exact hkb h3
      · intro k'
        constructor
        · rintro ⟨_, h, _⟩; cases h
        · rintro ⟨e, hh, hh'⟩
          rw [hri] at e
          cases e
          rcases h3 with h3 | ⟨ha, hb, e, h3⟩
          · exact absurd h3 hh
          · have := hh' ha hb e
            rcases h3 with h3 | h3
            · exact absurd h3 this.1
            · exact absurd h3 this.2
    · have h5 : k.line ∉ L.map (fun h => h.pin.line) := by
        rw [← held_iff hp1]
        rintro ⟨h, hh, e⟩
        exact h3 h hh e
      rw [hline] at h5
      refine Or.inr ⟨?_, fin s2 (some ⟨k, j, indexCb p⟩) (by rw [hri]; exact e3) H2 ?_ ?_ ?_⟩
      · rintro ⟨a, b, k', hboth, hqa, hk, hf, hh, hka, hkb⟩
        obtain ⟨ha, hb, hqq, _, _⟩ := (hqs a b).2 ⟨hqa, hf⟩
        rcases h4 with h4 | h4
        · exact hi1 ((wanted_perm hp1).mem_iff.1 h4)
        · rw [(wanted_perm hp1).length_eq, hw1, hwR, if_neg (by rw [hqq]; simp), if_neg hboth.1,
            if_neg hboth.2] at h4
          omega
      · rw [l2]
        exact hp1.cons _
      · rintro h e; cases e; rfl
      · intro k'
        constructor
        · rintro ⟨h, e, e'⟩
          cases e
          subst e'
          refine ⟨hri, fun h => h5 (Or.inl h), fun ha hb e => ⟨fun h => ?_, fun h => ?_⟩⟩
          · exact h5 (Or.inr ⟨ha, hb, e, Or.inl h⟩)
          · exact h5 (Or.inr ⟨ha, hb, e, Or.inr h⟩)
        · rintro ⟨e, _⟩
          rw [hri] at e
          cases e
          exact ⟨_, rfl, rfl⟩
    · have h5 : k.line ∉ L.map (fun h => h.pin.line) := by
        rw [← held_iff hp1]
        rintro ⟨h, hh, e⟩
        exact h3 h hh e
      rw [hline] at h5
      rw [(wanted_perm hp1).length_eq, hw1, hwR] at h4
      have hq0 : q ≠ none := by
        intro e; rw [if_pos e] at h4; revert h4; split_ifs <;> omega
      have hb1 : (x.obj (other p)).quad ≠ none := by
        intro e; rw [if_pos e] at h4; revert h4; split_ifs <;> omega
      have hb2 : (x.obj (other p)).index ≠ none := by
        intro e; rw [if_pos e] at h4; revert h4; split_ifs <;> omega
      obtain ⟨ab, hab⟩ := Option.ne_none_iff_exists'.1 hq0
      obtain ⟨ha, hb⟩ := ab
      have h6 := (hqs ha.pin hb.pin).1 ⟨ha, hb, hab, rfl, rfl⟩
      refine Or.inl ⟨ha.pin, hb.pin, k, ⟨hb1, hb2⟩, h6.1, rfl, h6.2, fun h => h5 (Or.inl h),
        fun h => h5 (Or.inr ⟨ha, hb, hab, Or.inl h⟩), fun h => h5 (Or.inr ⟨ha, hb, hab, Or.inr h⟩), ?_⟩
      have e4 : makeIndex s1 p r.index = none := by rw [hri]; exact e3
      simp only [update, e1, e4]

theorem pinv_initial : PInv {} := ⟨inv_initial, fun _ => by simp [Objs.handles, pair], fun _ => ⟨by simp, by simp⟩⟩

theorem pinv_updates : ∀ (l : List (Fin 2 × Req)) {x x' : Ports}, PInv x → updates x l = some x' → PInv x'
  | [], _, _, X, h => by cases h; exact X
  | (p, r) :: l, x, x', X, h => by
    simp only [updates] at h
    rcases update_spec X p r with ⟨_, _, _, _, _, _, _, _, _, _, e⟩ | ⟨_, y, e, Y, _⟩
    · rw [e] at h; cases h
    · rw [e] at h
      exact pinv_updates l Y h

/-- **C93.** After any configurations of both ports, a port gets the pins that it
asks for unless their lines are held by the other port or by itself; the other
port is not affected.  The controller stops exactly when both ports shall have
both a quadrature input by software and an index. -/
theorem C93_ports {l : List (Fin 2 × Req)} {x : Ports} (hx : updates {} l = some x) (p : Fin 2) (r : Req) :
    (update x p r = none ↔ ∃ a b i, Spec.both (x.obj (other p)) ∧ r.quad = some (a, b) ∧ r.index = some i ∧
      Spec.quadFree (Spec.held (x.obj (other p))) a b ∧ i.line ∉ Spec.held (x.obj (other p)) ∧
      i.line ≠ a.line ∧ i.line ≠ b.line) ∧
    ∀ x', update x p r = some x' → x'.obj (other p) = x.obj (other p) ∧
      Spec.Has (Spec.held (x.obj (other p))) r (x'.obj p) := by
  rcases update_spec (pinv_updates l pinv_initial hx) p r with
    ⟨a, b, i, h1, h2, h3, h4, h5, h6, h7, e⟩ | ⟨h1, y, e, _, h2, h3⟩
  · refine ⟨⟨fun _ => ⟨a, b, i, h1, h2, h3, h4, h5, h6, h7⟩, fun _ => e⟩, fun x' hx' => ?_⟩
    rw [e] at hx'; cases hx'
  · refine ⟨⟨fun h => ?_, fun h => absurd h h1⟩, fun x' hx' => ?_⟩
    · rw [e] at h; cases h
    · rw [e] at hx'; cases hx'
      exact ⟨h2, h3⟩

/-- **C93.** After any configurations, an edge at a pin of an object calls that
object, and if nothing has a pin, no interrupt is on. -/
theorem C93_ports_served {l : List (Fin 2 × Req)} {x : Ports} (hx : updates {} l = some x) :
    (∀ p, ∀ h ∈ (x.obj p).handles, h.cb ∈ edge x.sys h.pin) ∧
    ((∀ p, (x.obj p).handles = []) → ∀ g, x.sys.nvic g = false) := by
  have X := pinv_updates l pinv_initial hx
  refine ⟨fun p h hh => (ok_of_inv X.inv ((X.live p).mem_iff.2 (List.mem_append_left _ hh))).called, ?_⟩
  intro h0 g
  have : x.sys.live = [] := by
    have := X.live 0
    rw [h0, h0] at this
    exact List.perm_nil.1 this
  rw [Bool.eq_false_iff, Ne, X.inv.nvic, X.inv.count, this]
  simp

/-- Quadrature and index on port 1, quadrature on port 2. -/
example : ∃ x, updates {} [(0, { quad := some (pa5, pb4), index := some pa7 }),
    (1, { quad := some (pf1, pa10) })] = some x ∧ Spec.both (x.obj 0) ∧ (x.obj 1).quad ≠ none := by
  obtain ⟨x, e, h⟩ := Aux.wit (o := updates {} [(0, { quad := some (pa5, pb4), index := some pa7 }),
    (1, { quad := some (pf1, pa10) })])
    (fun x => (x.obj 0).quad.isSome && (x.obj 0).index.isSome && (x.obj 1).quad.isSome) (by decide +kernel)
  simp only [Bool.and_eq_true, Option.isSome_iff_ne_none] at h
  exact ⟨x, e, h.1, h.2⟩

/-- With both on both ports of a board of family 1 or 2 the controller uses a
null pointer. -/
theorem C93_fourth_refuted : updates {} [(0, { quad := some (pa5, pb4), index := some pa7 }),
    (1, { quad := some (pf1, pa10), index := some pa11 })] = none := by
  have : (updates {} [(0, { quad := some (pa5, pb4), index := some pa7 }),
    (1, { quad := some (pf1, pa10), index := some pa11 })]).isNone = true := by decide +kernel
  simpa using this

/-- The documentation says that any pins will do.  On port 1 of a board of
family 0 the first two share a line. -/
theorem C93_any_pins_refuted : ∃ a b, pinOf Aux.aux1Family0 0 = some a ∧ pinOf Aux.aux1Family0 1 = some b ∧
    a ≠ b ∧ ∃ x, updates {} [(0, { quad := some (a, b) })] = some x ∧ (x.obj 0).quad = none := by
  refine ⟨⟨2, 13⟩, ⟨1, 13⟩, by decide +kernel, by decide +kernel, by decide, ?_⟩
  obtain ⟨x, e, h⟩ := Aux.wit (o := updates {} [(0, { quad := some (⟨2, 13⟩, ⟨1, 13⟩) })])
    (fun x => (x.obj 0).quad.isNone) (by decide +kernel)
  exact ⟨x, e, by simpa using h⟩

end Verif.Fw.PinIrq
