import Verif.Flash.Model
import Mathlib.Tactic.Ring

/-! # Property C21: the blocks of an upload -/

namespace Verif.Flash

open Verif

namespace Spec

/-- The bytes of `d` placed from address `a`. -/
def bytesAt (a : Int) : Bytes → List (Int × UInt8)
  | [] => []
  | b :: d => (a, b) :: bytesAt (a + 1) d

/-- All bytes of an image with their addresses. -/
def image (secs : List Section) : List (Int × UInt8) := secs.flatMap fun s => bytesAt s.1 s.2

/-- Non empty sections in increasing order that do not overlap. -/
def Placed : Int → List Section → Prop
  | _, [] => True
  | low, (a, d) :: rest => low ≤ a ∧ d ≠ [] ∧ Placed (a + d.length) rest

end Spec

open Spec

theorem bytesAt_append (a : Int) (d e : Bytes) :
    bytesAt a (d ++ e) = bytesAt a d ++ bytesAt (a + d.length) e := by
  induction d generalizing a with
  | nil => simp [bytesAt]
  | cons b d ih =>
    simp only [List.cons_append, bytesAt, ih, List.length_cons]
    congr 3
    push_cast; ring

theorem bytesAt_length (a : Int) (d : Bytes) : (bytesAt a d).length = d.length := by
  induction d generalizing a with
  | nil => rfl
  | cons b d ih => simp [bytesAt, ih]

theorem bytesAt_mem {a : Int} {d : Bytes} {p : Int × UInt8} (h : p ∈ bytesAt a d) :
    a ≤ p.1 ∧ p.1 < a + d.length := by
  induction d generalizing a with
  | nil => simp [bytesAt] at h
  | cons b d ih =>
    simp only [bytesAt, List.mem_cons] at h
    simp only [List.length_cons]; push_cast
    rcases h with rfl | h
    · simp only; omega
    · have := ih h; omega

theorem filter_all (c a : Int) (d : Bytes) (h : c ≤ a) :
    (bytesAt a d).filter (fun p => decide (c ≤ p.1)) = bytesAt a d := by
  rw [List.filter_eq_self]
  intro p hp
  have := bytesAt_mem hp
  simp; omega

theorem filter_none (c a : Int) (d : Bytes) (h : a + d.length ≤ c) :
    (bytesAt a d).filter (fun p => decide (c ≤ p.1)) = [] := by
  rw [List.filter_eq_nil_iff]
  intro p hp
  have := bytesAt_mem hp
  simp; omega

theorem filter_mid (c a : Int) (d : Bytes) (h1 : a ≤ c) (h2 : c ≤ a + d.length) :
    (bytesAt a d).filter (fun p => decide (c ≤ p.1)) = bytesAt c (d.drop (c - a).toNat) := by
  have hl : (d.take (c - a).toNat).length = (c - a).toNat := by
    rw [List.length_take]; omega
  conv_lhs => rw [← List.take_append_drop (c - a).toNat d, bytesAt_append, List.filter_append]
  rw [filter_none c a _ (by rw [hl]; omega), filter_all c _ _ (by rw [hl]; omega), hl,
    List.nil_append]
  congr 1
  omega

/-- What remains to be sent from address `c`. -/
def rest (c : Int) (secs : List Section) : List (Int × UInt8) :=
  (image secs).filter fun p => decide (c ≤ p.1)

theorem rest_cons (c : Int) (s : Section) (secs : List Section) :
    rest c (s :: secs) =
      (bytesAt s.1 s.2).filter (fun p => decide (c ≤ p.1)) ++ rest c secs := by
  simp [rest, image]

theorem Placed.mono {l l' : Int} {secs : List Section} (h : Placed l secs) (hl : l' ≤ l) :
    Placed l' secs := by
  cases secs with
  | nil => trivial
  | cons s secs => exact ⟨by have := h.1; omega, h.2⟩

theorem rest_all {c low : Int} {secs : List Section} (h : Placed low secs) (hc : c ≤ low) :
    rest c secs = image secs := by
  induction secs generalizing low with
  | nil => rfl
  | cons s secs ih =>
    rw [rest_cons, filter_all _ _ _ (by have := h.1; omega), ih h.2.2 (by have := h.1; omega)]
    simp [image]

theorem take_drop_min (d : Bytes) (n : Nat) (k : Nat) (hk : d.length - n ≤ k) :
    (d.drop n).take (min k 32) = (d.drop n).take 32 := by
  by_cases h : k ≤ 32
  · rw [Nat.min_eq_left h, List.take_of_length_le (by simp; omega),
      List.take_of_length_le (by simp; omega)]
  · rw [Nat.min_eq_right (by omega)]

/-- One call of `get_next_block`. -/
theorem getNextBlock_spec (c low : Int) (secs : List Section) (h : Placed low secs) :
    (rest c secs = [] ∧ getNextBlock c secs = {}) ∨
    (∃ b, getNextBlock c secs = b ∧ max c low ≤ b.address ∧ 1 ≤ b.data.length ∧ b.data.length ≤ 32 ∧
      rest c secs = bytesAt b.address b.data ++ rest (b.address + b.data.length) secs) := by
  induction secs generalizing low with
  | nil => left; exact ⟨rfl, rfl⟩
  | cons s secs ih =>
    obtain ⟨a, d⟩ := s
    obtain ⟨h1, h2, h3⟩ := h
    have hd : 0 < d.length := List.length_pos_iff.mpr h2
    unfold getNextBlock
    by_cases hc : a > c
    · right
      rw [if_pos hc]
      refine ⟨_, rfl, by simp only; omega, by rw [List.length_take]; omega,
        by rw [List.length_take]; omega, ?_⟩
      have hl : (d.take 32).length ≤ d.length := by rw [List.length_take]; omega
      rw [rest_cons, rest_cons]
      simp only
      rw [filter_all c a d (by omega), filter_mid _ a d (by omega) (by omega),
        rest_all h3 (by omega), rest_all h3 (by omega), ← List.append_assoc]
      congr 1
      rw [show (a + ((d.take 32).length : Int) - a).toNat = (d.take 32).length by omega,
        ← bytesAt_append]
      congr 1
      rw [List.length_take]
      by_cases h32 : 32 ≤ d.length
      · rw [Nat.min_eq_left h32, List.take_append_drop]
      · rw [Nat.min_eq_right (by omega), List.drop_length, List.take_of_length_le (by omega),
          List.append_nil]
    · rw [if_neg hc]
      simp only
      by_cases he : a + d.length > c
      · right
        rw [if_pos he]
        have e1 : ((min (a + (d.length : Int) - c) 32)).toNat = min (d.length - (c - a).toNat) 32 := by
          omega
        have e2 : (d.drop (c - a).toNat).take (min (a + (d.length : Int) - c) 32).toNat =
            (d.drop (c - a).toNat).take 32 := by
          rw [e1, take_drop_min d _ _ (by omega)]
        rw [e2]
        refine ⟨_, rfl, by simp only; omega, by simp only [List.length_take, List.length_drop]; omega,
          by simp only [List.length_take]; omega, ?_⟩
        have hl : ((d.drop (c - a).toNat).take 32).length ≤ d.length - (c - a).toNat := by
          rw [List.length_take, List.length_drop]; omega
        rw [rest_cons, rest_cons]
        simp only
        generalize hX : (d.drop (c - a).toNat).take 32 = X at *
        rw [filter_mid c a d (by omega) (by omega), filter_mid _ a d (by omega) (by omega),
          rest_all h3 (by omega), rest_all h3 (by omega), ← List.append_assoc]
        congr 1
        rw [show (c + (X.length : Int) - a).toNat = (c - a).toNat + X.length by omega,
          ← List.drop_drop, ← bytesAt_append]
        congr 1
        have : X = (d.drop (c - a).toNat).take X.length := by
          rw [← hX, List.length_take, ← List.take_eq_take_min]
        conv_lhs => rw [← List.take_append_drop X.length (d.drop (c - a).toNat)]
        rw [← this]
      · rw [if_neg he]
        rcases ih (a + d.length) h3 with ⟨e1, e2⟩ | ⟨b, e1, e2, e3, e4, e5⟩
        · left
          rw [rest_cons, filter_none _ _ _ (by simp only; omega), e1, e2]
          exact ⟨rfl, rfl⟩
        · right
          refine ⟨b, e1, by omega, e3, e4, ?_⟩
          rw [rest_cons, rest_cons, filter_none _ _ _ (by simp only; omega),
            filter_none _ _ _ (by simp only; omega), List.nil_append, List.nil_append, e5]

theorem blocks_spec (secs : List Section) (h : Placed 0 secs) (n : Nat) :
    ∀ c : Int, rest c secs ≠ [] → (rest c secs).length ≤ n →
    ∃ bs, (∀ m, n ≤ m → blocks secs m c = some bs) ∧ bs ≠ [] ∧
      bs.flatMap (fun b => bytesAt b.address b.data) = rest c secs ∧
      ∀ b ∈ bs, 0 ≤ b.address ∧ 1 ≤ b.data.length ∧ b.data.length ≤ 32 := by
  induction n with
  | zero => intro c h1 h2; exact absurd (List.length_eq_zero_iff.mp (by omega)) h1
  | succ n ih =>
    intro c h1 h2
    rcases getNextBlock_spec c 0 secs h with ⟨e, _⟩ | ⟨b, e1, e2, e3, e4, e5⟩
    · exact absurd e h1
    · have hlen := congrArg List.length e5
      rw [List.length_append, bytesAt_length] at hlen
      rcases getNextBlock_spec (b.address + b.data.length) 0 secs h with ⟨f1, f2⟩ | ⟨b', f1, f2, f3, _, f5⟩
      · refine ⟨[b], ?_, by simp, ?_, ?_⟩
        · intro m hm
          obtain ⟨m, rfl⟩ : ∃ k, m = k + 1 := ⟨m - 1, by omega⟩
          unfold blocks advanceBlock
          simp only [e1, f2]
          simp
        · rw [e5, f1]; simp
        · intro x hx
          simp only [List.mem_singleton] at hx
          subst hx
          exact ⟨by omega, e3, e4⟩
      · have hne : rest (b.address + b.data.length) secs ≠ [] := by
          rw [f5]
          intro hnil
          have := congrArg List.length hnil
          rw [List.length_append, bytesAt_length] at this
          simp only [List.length_nil] at this
          omega
        obtain ⟨bs, g1, g2, g3, g4⟩ := ih (b.address + b.data.length) hne (by omega)
        refine ⟨b :: bs, ?_, by simp, ?_, ?_⟩
        · intro m hm
          obtain ⟨m, rfl⟩ : ∃ k, m = k + 1 := ⟨m - 1, by omega⟩
          unfold blocks advanceBlock
          simp only [e1, f1]
          have : ¬ b'.address < 0 := by omega
          simp only [this, decide_false, Bool.false_eq_true, if_false, g1 m (by omega)]
        · rw [e5, List.flatMap_cons, g3]
        · intro x hx
          rcases List.mem_cons.mp hx with rfl | hx
          · exact ⟨by omega, e3, e4⟩
          · exact g4 x hx

/-- C21: the blocks of the upload are, in order, exactly the bytes of the
image at their addresses; every block has 1 to 32 bytes; the loop ends (the
blocks are the same for every sufficient bound on the number of turns). -/
theorem C21_blocks_cover (secs : List Section) (h : Placed 0 secs) (hne : secs ≠ []) :
    ∃ bs, (∀ n, (image secs).length ≤ n → blocks secs n (-1) = some bs) ∧
      bs.flatMap (fun b => bytesAt b.address b.data) = image secs ∧
      ∀ b ∈ bs, 0 ≤ b.address ∧ 1 ≤ b.data.length ∧ b.data.length ≤ 32 := by
  have hr : rest (-1) secs = image secs := rest_all h (by omega)
  have hi : image secs ≠ [] := by
    cases secs with
    | nil => exact absurd rfl hne
    | cons s secs =>
      obtain ⟨a, d⟩ := s
      have hd := h.2.1
      cases d with
      | nil => exact absurd rfl hd
      | cons x d => simp [image, bytesAt]
  obtain ⟨bs, h1, _, h3, h4⟩ := blocks_spec secs h (image secs).length (-1) (by rw [hr]; exact hi)
    (by rw [hr])
  exact ⟨bs, h1, by rw [h3, hr], h4⟩

/-- An empty section gives an empty block, for which the bootloader reports an
error: C21 needs non empty sections. -/
theorem C21_empty_section_refuted :
    blocks [(0x1000, [1]), (0x2000, []), (0x3000, [2])] 10 (-1) =
      some [⟨0x1000, [1]⟩, ⟨0x2000, []⟩, ⟨0x3000, [2]⟩] := by decide

/-- An image without sections gives one block at address -1. -/
theorem C21_empty_image_refuted : blocks [] 10 (-1) = some [⟨-1, []⟩] := by decide

example : Placed 0 [(0x08000000, [1, 2, 3]), (0x08000003, [4]), (0x08010000, List.replicate 40 9)] := by
  simp [Placed]
example : (blocks [(0x08000000, List.replicate 40 9), (0x08000028, [4])] 41 (-1)).map
    (·.map fun b => (b.address, b.data.length)) =
    some [(0x08000000, 32), (0x08000020, 8), (0x08000028, 1)] := by decide

/-! ## C24: ELF addresses -/

/-- C24: a section inside of a segment (and inside of no earlier one) is
placed with the same distance from the segment start. -/
theorem C24_same_distance (before after : List Mapping) (m : Mapping) (address size : Nat)
    (hb : ∀ x ∈ before, ¬ (x.virtualAddress ≤ address ∧ address + size ≤ x.virtualAddress + x.size))
    (hm : m.virtualAddress ≤ address ∧ address + size ≤ m.virtualAddress + m.size) :
    ∃ p : Nat, logicalToPhysical address size (before ++ m :: after) = some (p : Int) ∧
      m.physicalAddress ≤ p ∧ p + size ≤ m.physicalAddress + m.size ∧
      p - m.physicalAddress = address - m.virtualAddress := by
  refine ⟨address - m.virtualAddress + m.physicalAddress, ?_, by omega, by omega, by omega⟩
  induction before with
  | nil =>
    simp only [List.nil_append, logicalToPhysical]
    rw [if_pos hm]
    congr 1
    omega
  | cons x before ih =>
    simp only [List.cons_append, logicalToPhysical]
    rw [if_neg (hb x (by simp)), ih (fun y hy => hb y (by simp [hy]))]

/-- C24: an address is only produced if some segment contains the section;
otherwise an error is raised. -/
theorem C24_error_iff (ms : List Mapping) (address size : Nat) :
    logicalToPhysical address size ms = none ↔
      ∀ m ∈ ms, ¬ (m.virtualAddress ≤ address ∧ address + size ≤ m.virtualAddress + m.size) := by
  induction ms with
  | nil => simp [logicalToPhysical]
  | cons m ms ih =>
    simp only [logicalToPhysical]
    split
    · next h =>
      simp only [reduceCtorEq, false_iff]
      intro hall
      exact hall m (by simp) h
    · next h =>
      rw [ih]
      constructor
      · intro hall x hx
        rcases List.mem_cons.mp hx with rfl | hx
        · exact h
        · exact hall x hx
      · intro hall x hx; exact hall x (by simp [hx])

/-- C24: sections that do not overlap do not overlap after the translation,
when both are translated by the same segment (here: the only one). -/
theorem C24_disjoint (m : Mapping) (a s b t : Nat) (p q : Int)
    (hp : logicalToPhysical a s [m] = some p) (hq : logicalToPhysical b t [m] = some q)
    (h : a + s ≤ b) : p + s ≤ q := by
  simp only [logicalToPhysical] at hp hq
  split at hp <;> split at hq <;> simp_all
  omega

theorem insertKey_perm (x : Section) (l : List Section) : (insertKey x l).Perm (x :: l) := by
  induction l with
  | nil => exact List.Perm.refl _
  | cons y ys ih =>
    simp only [insertKey]
    split
    · exact List.Perm.refl _
    · exact (List.Perm.cons y ih).trans (List.Perm.swap x y ys)

theorem sortKeys_perm (l : List Section) : (sortKeys l).Perm l := by
  induction l with
  | nil => exact List.Perm.refl _
  | cons x l ih =>
    exact (insertKey_perm x (sortKeys l)).trans (List.Perm.cons x ih)

theorem insertKey_sorted (x : Section) (l : List Section)
    (h : l.Pairwise fun a b => a.1 ≤ b.1) : (insertKey x l).Pairwise fun a b => a.1 ≤ b.1 := by
  induction l with
  | nil => simp [insertKey]
  | cons y ys ih =>
    simp only [insertKey]
    obtain ⟨h1, h2⟩ := List.pairwise_cons.mp h
    split
    · next hxy =>
      apply List.pairwise_cons.mpr
      refine ⟨?_, h⟩
      intro z hz
      rcases List.mem_cons.mp hz with rfl | hz
      · exact hxy
      · have := h1 z hz; omega
    · next hxy =>
      apply List.pairwise_cons.mpr
      refine ⟨?_, ih h2⟩
      intro z hz
      rcases List.mem_cons.mp ((insertKey_perm x ys).mem_iff.mp hz) with rfl | hz
      · omega
      · exact h1 z hz

theorem sortKeys_sorted (l : List Section) : (sortKeys l).Pairwise fun a b => a.1 ≤ b.1 := by
  induction l with
  | nil => simp [sortKeys]
  | cons x l ih => exact insertKey_sorted x _ ih

/-- Where a file section will be stored. -/
def Spec.Stored (ms : List Mapping) (s : FileSection) (p : Int) : Prop :=
  logicalToPhysical s.address s.size ms = some p

theorem setKey_fresh (k : Int) (v : Bytes) (l : List Section) (h : ∀ x ∈ l, x.1 ≠ k) :
    setKey k v l = l ++ [(k, v)] := by
  induction l with
  | nil => rfl
  | cons x l ih =>
    obtain ⟨k', v'⟩ := x
    simp only [setKey]
    rw [if_neg (h (k', v') (by simp)), ih (fun y hy => h y (by simp [hy]))]
    rfl

/-- C24: with distinct names and distinct physical addresses, the sections of
the image are exactly the wanted sections, each at its physical address, in
increasing order. -/
theorem C24_sections (ms : List Mapping) (names : List Bytes) (secs : List FileSection)
    (place : FileSection → Int) (hnames : (secs.map (·.name)).Nodup)
    (hplace : ∀ s ∈ secs, s.name ∈ names → Spec.Stored ms s (place s))
    (hdist : ((secs.filter fun s => decide (s.name ∈ names)).map place).Nodup) :
    ∃ out, readElf ms names secs = some out ∧
      out.Perm ((secs.filter fun s => decide (s.name ∈ names)).map fun s => (place s, s.data)) ∧
      out.Pairwise fun a b => a.1 ≤ b.1 := by
  have key : ∀ (secs : List FileSection) (names : List Bytes) (acc : List Section),
      (secs.map (·.name)).Nodup →
      (∀ s ∈ secs, s.name ∈ names → Spec.Stored ms s (place s)) →
      ((secs.filter fun s => decide (s.name ∈ names)).map place).Nodup →
      (∀ x ∈ acc, ∀ s ∈ secs, s.name ∈ names → x.1 ≠ place s) →
      collect ms names secs acc =
        some (acc ++ (secs.filter fun s => decide (s.name ∈ names)).map fun s => (place s, s.data)) := by
    intro secs
    induction secs with
    | nil => intro names acc _ _ _ _; simp [collect]
    | cons s secs ih =>
      intro names acc hn hp hd ha
      simp only [collect]
      simp only [List.map_cons, List.nodup_cons] at hn
      by_cases hs : s.name ∈ names
      · rw [if_pos hs, hp s (by simp) hs]
        simp only
        rw [setKey_fresh _ _ _ (fun x hx => ha x hx s (by simp) hs)]
        have hfilter : (secs.filter fun x => decide (x.name ∈ names.filter (· ≠ s.name))) =
            secs.filter fun x => decide (x.name ∈ names) := by
          apply List.filter_congr
          intro x hx
          have hne : x.name ≠ s.name := fun e => hn.1 (e ▸ List.mem_map_of_mem (f := (·.name)) hx)
          simp [hne]
        rw [List.filter_cons, if_pos (by simpa using hs), List.map_cons, List.nodup_cons] at hd
        rw [ih (names.filter (· ≠ s.name)) (acc ++ [(place s, s.data)]) hn.2, hfilter]
        · rw [List.filter_cons, if_pos (by simpa using hs)]; simp
        · intro x hx hxn
          exact hp x (by simp [hx]) (List.mem_filter.mp hxn).1
        · rw [hfilter]; exact hd.2
        · intro y hy x hx hxn
          have hxn' := (List.mem_filter.mp hxn).1
          rcases List.mem_append.mp hy with hy | hy
          · exact ha y hy x (by simp [hx]) hxn'
          · simp only [List.mem_singleton] at hy
            subst hy
            intro e
            apply hd.1
            simp only at e
            rw [e]
            apply List.mem_map_of_mem (f := place)
            exact List.mem_filter.mpr ⟨hx, by simpa using hxn'⟩
      · rw [if_neg hs, ih names acc hn.2 (fun x hx => hp x (by simp [hx]))]
        · rw [List.filter_cons, if_neg (by simpa using hs)]
        · rw [List.filter_cons, if_neg (by simpa using hs)] at hd; exact hd
        · intro y hy x hx; exact ha y hy x (by simp [hx])
  refine ⟨sortKeys ((secs.filter fun s => decide (s.name ∈ names)).map fun s => (place s, s.data)),
    ?_, sortKeys_perm _, sortKeys_sorted _⟩
  unfold readElf
  rw [key secs names [] hnames hplace hdist (by simp)]
  rfl

example : readElf [⟨0x20000000, 0x08012000, 0x100⟩, ⟨0x08010000, 0x08010000, 0x2000⟩]
    [[1], [2]] [⟨[2], 0x20000010, 2, [7, 8]⟩, ⟨[3], 5, 1, [0]⟩, ⟨[1], 0x08010000, 1, [9]⟩] =
    some [(0x08010000, [9]), (0x08012010, [7, 8])] := by decide

end Verif.Flash
