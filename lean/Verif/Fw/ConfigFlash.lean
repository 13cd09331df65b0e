import Mathlib.Data.List.Basic
import Mathlib.Data.List.Induction
import Mathlib.Tactic.NormNum

/-!
# The flash that holds the configuration (C107)

`Stm32G4Flash` of `fw/stm32g4_flash.h` is what a configuration is saved through: bytes are collected into
words of eight and a word is programmed when another one begins, when it is complete, or when the flash is
locked.

The 64 bits of `shadow_` and `shadow_bits_` are represented by their eight bytes, of which those of
`shadow_bits_` are 0 or 0xff.  The hardware is that of RM0440, 3.3.7 and 3.3.8: a page of bank 2 has 2048
bytes; a word can be programmed if all of its bits are 1 or with 0, anything else is refused.
-/

namespace Verif.Fw.ConfigFlash

/-! ## the hardware -/

/-- the address of a page of the second bank. -/
def pageStart (p : ℕ) : ℕ := 0x8040000 + 2048 * p

/-- `HAL_FLASHEx_Erase` of `n` pages of bank 2 from page `p` on. -/
def erasePages (p n : ℕ) (mem : ℕ → ℕ) : ℕ → ℕ :=
  fun a => if pageStart p ≤ a ∧ a < pageStart (p + n) then 255 else mem a

/-- eight bytes at `a`. -/
def store (mem : ℕ → ℕ) (a : ℕ) (w : ℕ → ℕ) : ℕ → ℕ :=
  fun b => if a ≤ b ∧ b < a + 8 then w (b - a) else mem b

/-- `HAL_FLASH_Program` of a double word: refused if a bit is 0 already, unless the word is 0. -/
def programWord (mem : ℕ → ℕ) (a : ℕ) (w : ℕ → ℕ) : ℕ → ℕ :=
  if (∀ i : ℕ, i < 8 → mem (a + i) = 255) ∨ (∀ i : ℕ, i < 8 → w i = 0) then store mem a w else mem

/-! ## the class -/

/-- the members (89-91) and the flash. -/
structure St where
  start : ℕ
  shadow : ℕ → ℕ
  have_ : ℕ → Bool
  mem : ℕ → ℕ
  locked : Bool

/-- `GetInfo` (28-34): the region that the configuration may use. -/
def infoStart : ℕ := 0x807f000

def infoEnd : ℕ := infoStart + 0x1000

/-- `FlushWord` (82-87); the result of `HAL_FLASH_Program` is not looked at. -/
def St.flush (s : St) : St where
  start := 0
  shadow := fun _ => 0
  have_ := fun _ => false
  mem := if s.locked then s.mem else programWord s.mem s.start s.shadow
  locked := s.locked

/-- `ProgramByte` (61-79). -/
def St.program (s : St) (a v : ℕ) : St :=
  let s := if a / 8 * 8 ≠ s.start ∧ s.start ≠ 0 then s.flush else s
  let s := { s with
    start := a / 8 * 8
    shadow := fun i => if i = a % 8 then s.shadow i ||| v else s.shadow i
    have_ := fun i => if i = a % 8 then true else s.have_ i }
  if ∀ i : ℕ, i < 8 → s.have_ i = true then s.flush else s

/-- `Unlock` (50-52), `Lock` (54-59), `Erase` (36-48), `ProgramByte`. -/
inductive Op where
  | unlock | lock | erase
  | program (a v : ℕ)

/-- one call; `none` is `mbed_die`. -/
def St.step (s : St) : Op → Option St
  | .unlock => some { s with locked := false }
  | .lock => some { (if ∃ i : ℕ, i < 8 ∧ s.have_ i = true then s.flush else s) with locked := true }
  | .erase => if s.locked then none else some { s with mem := erasePages 126 2 s.mem }
  | .program a v => some (s.program a v)

def run (s : St) : List Op → Option St
  | [] => some s
  | o :: os => (s.step o).bind (run · os)

/-- after the constructor (23), the flash being locked. -/
def St.init (mem : ℕ → ℕ) : St := ⟨0, fun _ => 0, fun _ => false, mem, true⟩

/-- how a configuration is saved. -/
def save (l : List (ℕ × ℕ)) : List Op :=
  [.unlock, .erase] ++ l.map (fun p : ℕ × ℕ => Op.program p.1 p.2) ++ [.lock]

/-! ## the specification -/

namespace Spec

/-- an order of bytes that the flash can take: no address twice, and no return to an earlier word. -/
def Ordered (l : List (ℕ × ℕ)) : Prop :=
  l.Pairwise fun p q => p.1 / 8 ≤ q.1 / 8 ∧ p.1 ≠ q.1

/-- the bytes are in the region of the configuration. -/
def Inside (l : List (ℕ × ℕ)) : Prop := ∀ p ∈ l, 0x807f000 ≤ p.1 ∧ p.1 < 0x8080000

/-- a byte of the word of `a` was written. -/
def Touched (l : List (ℕ × ℕ)) (a : ℕ) : Prop := ∃ p ∈ l, p.1 / 8 = a / 8

end Spec

open Spec

/-! ## proofs -/

/-- what has to be at `a` after the bytes `l`. -/
private def Img (l : List (ℕ × ℕ)) (a x : ℕ) : Prop :=
  (a, x) ∈ l ∨ ((∀ v, (a, v) ∉ l) ∧ (Touched l a → x = 0) ∧ (¬ Touched l a → x = 255))

private theorem Img.add {l : List (ℕ × ℕ)} {a x b v : ℕ} (h : Img l a x) (hd : a / 8 ≠ b / 8) :
    Img (l ++ [(b, v)]) a x := by
  have ht : Touched (l ++ [(b, v)]) a ↔ Touched l a := by
    unfold Touched
    constructor
    · rintro ⟨p, hp, e⟩
      rcases List.mem_append.mp hp with hp | hp
      · exact ⟨p, hp, e⟩
      · rw [List.mem_singleton.mp hp] at e
        exact absurd e.symm hd
    · rintro ⟨p, hp, e⟩
      exact ⟨p, List.mem_append_left _ hp, e⟩
  rcases h with h | ⟨h1, h2, h3⟩
  · exact Or.inl (List.mem_append_left _ h)
  · refine Or.inr ⟨fun w hw => ?_, fun h => h2 (ht.mp h), fun h => h3 (mt ht.mpr h)⟩
    rcases List.mem_append.mp hw with hw | hw
    · exact h1 w hw
    · injection List.mem_singleton.mp hw with e
      exact hd (by rw [e])

private structure Inv (mem : ℕ → ℕ) (l : List (ℕ × ℕ)) (s : St) : Prop where
  unlocked : s.locked = false
  outside : ∀ a, ¬ (0x807f000 ≤ a ∧ a < 0x8080000) → s.mem a = mem a
  inside : ∀ a, 0x807f000 ≤ a ∧ a < 0x8080000 → ¬ (s.start ≠ 0 ∧ a / 8 * 8 = s.start) → Img l a (s.mem a)
  idle : s.start = 0 → (∀ i, s.shadow i = 0 ∧ s.have_ i = false) ∧
    ∀ a, (∀ p ∈ l, p.1 / 8 ≤ a / 8) → (∀ p ∈ l, p.1 ≠ a) → ¬ Touched l a
  busy : s.start ≠ 0 → s.start % 8 = 0 ∧ 0x807f000 ≤ s.start ∧ s.start < 0x8080000 ∧ Touched l s.start ∧
    (∀ p ∈ l, p.1 / 8 ≤ s.start / 8) ∧
    (∀ i < 8, s.mem (s.start + i) = 255 ∧ Img l (s.start + i) (s.shadow i) ∧
      (s.have_ i = true ↔ ∃ v, (s.start + i, v) ∈ l)) ∧ ∃ i < 8, s.have_ i = true

/-- what a flush of a pending word leaves. -/
private theorem flush_mem {mem : ℕ → ℕ} {l : List (ℕ × ℕ)} {s : St} (h : Inv mem l s) (hs : s.start ≠ 0) :
    (∀ a, ¬ (0x807f000 ≤ a ∧ a < 0x8080000) → s.flush.mem a = mem a) ∧
    ∀ a, 0x807f000 ≤ a ∧ a < 0x8080000 → Img l a (s.flush.mem a) := by
  obtain ⟨b1, b2, b3, -, -, b6, -⟩ := h.busy hs
  have hm : s.flush.mem = store s.mem s.start s.shadow := by
    show (if s.locked then s.mem else programWord s.mem s.start s.shadow) = _
    rw [h.unlocked, if_neg Bool.false_ne_true]
    unfold programWord
    rw [if_pos (Or.inl fun i hi => (b6 i hi).1)]
  rw [hm]
  refine ⟨fun a ha => ?_, fun a ha => ?_⟩
  · unfold store
    rw [if_neg (by omega)]
    exact h.outside a ha
  · unfold store
    by_cases hc : s.start ≤ a ∧ a < s.start + 8
    · rw [if_pos hc]
      have := (b6 (a - s.start) (by omega)).2.1
      rwa [show s.start + (a - s.start) = a from by omega] at this
    · rw [if_neg hc]
      exact h.inside a ha (by omega)

/-- one byte put into the word at hand. -/
private def put (s : St) (a v : ℕ) : St :=
  { s with
    start := a / 8 * 8
    shadow := fun i => if i = a % 8 then s.shadow i ||| v else s.shadow i
    have_ := fun i => if i = a % 8 then true else s.have_ i }

private theorem program_eq (s : St) (a v : ℕ) :
    s.program a v =
      if ∀ i : ℕ, i < 8 → (put (if a / 8 * 8 ≠ s.start ∧ s.start ≠ 0 then s.flush else s) a v).have_ i = true then
        (put (if a / 8 * 8 ≠ s.start ∧ s.start ≠ 0 then s.flush else s) a v).flush
      else put (if a / 8 * 8 ≠ s.start ∧ s.start ≠ 0 then s.flush else s) a v := rfl

private theorem touched_add {l : List (ℕ × ℕ)} {a v b : ℕ} (h : b / 8 = a / 8) : Touched (l ++ [(a, v)]) b :=
  ⟨(a, v), by simp, h.symm⟩

/-- a byte of a new word. -/
private theorem put_new {mem : ℕ → ℕ} {l : List (ℕ × ℕ)} {s : St} {a v : ℕ}
    (h1 : s.locked = false) (h2 : ∀ a, ¬ (0x807f000 ≤ a ∧ a < 0x8080000) → s.mem a = mem a)
    (h3 : ∀ a, 0x807f000 ≤ a ∧ a < 0x8080000 → Img l a (s.mem a))
    (h4 : ∀ i, s.shadow i = 0 ∧ s.have_ i = false) (hn : ¬ Touched l a)
    (ha : 0x807f000 ≤ a ∧ a < 0x8080000) (hle : ∀ p ∈ l, p.1 / 8 ≤ a / 8) :
    Inv mem (l ++ [(a, v)]) (put s a v) := by
  have hno : ∀ i < 8, ∀ w, (a / 8 * 8 + i, w) ∉ l := by
    intro i hi w hw
    exact hn ⟨_, hw, by simp only; omega⟩
  refine ⟨h1, h2, fun b hb hc => (h3 b hb).add ?_, fun h => ?_, fun _ => ⟨?_, ?_, ?_, ?_, ?_, ?_, ?_⟩⟩
  · have : a / 8 * 8 ≠ 0 := by omega
    intro e
    exact hc ⟨this, by show b / 8 * 8 = a / 8 * 8; rw [e]⟩
  · have : a / 8 * 8 = 0 := h
    omega
  · show a / 8 * 8 % 8 = 0
    omega
  · show 0x807f000 ≤ a / 8 * 8
    omega
  · show a / 8 * 8 < 0x8080000
    omega
  · exact touched_add (by show a / 8 * 8 / 8 = a / 8; omega)
  · intro p hp
    show p.1 / 8 ≤ a / 8 * 8 / 8
    rcases List.mem_append.mp hp with hp | hp
    · have := hle p hp
      omega
    · rw [List.mem_singleton.mp hp]
      simp only
      omega
  · intro i hi
    have hd : (a / 8 * 8 + i) / 8 = a / 8 := by omega
    refine ⟨?_, ?_, ?_⟩
    · rcases h3 (a / 8 * 8 + i) (by omega) with hm | ⟨-, -, hm⟩
      · exact absurd hm (hno i hi _)
      · exact hm fun ⟨p, hp, e⟩ => hn ⟨p, hp, by omega⟩
    · show Img _ (a / 8 * 8 + i) (if i = a % 8 then s.shadow i ||| v else s.shadow i)
      by_cases hia : i = a % 8
      · rw [if_pos hia, (h4 i).1, Nat.zero_or]
        left
        rw [show a / 8 * 8 + i = a from by omega]
        simp
      · rw [if_neg hia, (h4 i).1]
        right
        refine ⟨fun w hw => ?_, fun _ => rfl, fun hc => absurd (touched_add hd) hc⟩
        rcases List.mem_append.mp hw with hw | hw
        · exact hno i hi w hw
        · injection List.mem_singleton.mp hw with e
          omega
    · show (if i = a % 8 then true else s.have_ i) = true ↔ ∃ w, (a / 8 * 8 + i, w) ∈ _
      by_cases hia : i = a % 8
      · rw [if_pos hia]
        refine ⟨fun _ => ⟨v, ?_⟩, fun _ => rfl⟩
        rw [show a / 8 * 8 + i = a from by omega]
        simp
      · rw [if_neg hia, (h4 i).2]
        refine ⟨(fun h => by cases h), fun ⟨w, hw⟩ => ?_⟩
        rcases List.mem_append.mp hw with hw | hw
        · exact absurd hw (hno i hi w)
        · injection List.mem_singleton.mp hw with e
          omega
  · exact ⟨a % 8, Nat.mod_lt _ (by norm_num), if_pos rfl⟩

/-- a further byte of the word at hand. -/
private theorem put_same {mem : ℕ → ℕ} {l : List (ℕ × ℕ)} {s : St} {a v : ℕ} (h : Inv mem l s)
    (hs : s.start ≠ 0) (hst : a / 8 * 8 = s.start) (hne : ∀ p ∈ l, p.1 ≠ a) :
    Inv mem (l ++ [(a, v)]) (put s a v) := by
  obtain ⟨b1, b2, b3, b4, b5, b6, b7⟩ := h.busy hs
  refine ⟨h.unlocked, h.outside, fun b hb hc => ?_, fun h => absurd (hst.symm.trans h) hs,
    fun _ => ⟨?_, ?_, ?_, ?_, ?_, ?_, ?_⟩⟩
  · have hc' : ¬ (a / 8 * 8 ≠ 0 ∧ b / 8 * 8 = a / 8 * 8) := hc
    rw [hst] at hc'
    exact (h.inside b hb hc').add fun e => hc' ⟨hs, by rw [e, hst]⟩
  · show a / 8 * 8 % 8 = 0
    omega
  · show 0x807f000 ≤ a / 8 * 8
    omega
  · show a / 8 * 8 < 0x8080000
    omega
  · exact touched_add (by show a / 8 * 8 / 8 = a / 8; omega)
  · intro p hp
    show p.1 / 8 ≤ a / 8 * 8 / 8
    rcases List.mem_append.mp hp with hp | hp
    · have := b5 p hp
      omega
    · rw [List.mem_singleton.mp hp]
      simp only
      omega
  · intro i hi
    obtain ⟨c1, c2, c3⟩ := b6 i hi
    have hst' : (put s a v).start = s.start := hst
    rw [hst']
    have htch : Touched l (s.start + i) := by
      obtain ⟨p, hp, e⟩ := b4
      exact ⟨p, hp, by omega⟩
    have hd : (s.start + i) / 8 = a / 8 := by omega
    refine ⟨c1, ?_, ?_⟩
    · show Img _ (s.start + i) (if i = a % 8 then s.shadow i ||| v else s.shadow i)
      by_cases hia : i = a % 8
      · have he : s.start + i = a := by omega
        rw [if_pos hia]
        have h0 : s.shadow i = 0 := by
          rcases c2 with c2 | ⟨-, c2, -⟩
          · exact absurd he (hne _ c2)
          · exact c2 htch
        rw [h0, Nat.zero_or, he]
        left
        simp
      · rw [if_neg hia]
        rcases c2 with c2 | ⟨c4, c5, -⟩
        · exact Or.inl (List.mem_append_left _ c2)
        · right
          refine ⟨fun w hw => ?_, fun _ => c5 htch, fun hc => absurd (touched_add hd) hc⟩
          rcases List.mem_append.mp hw with hw | hw
          · exact c4 w hw
          · injection List.mem_singleton.mp hw with e
            omega
    · show (if i = a % 8 then true else s.have_ i) = true ↔ ∃ w, (s.start + i, w) ∈ _
      by_cases hia : i = a % 8
      · rw [if_pos hia]
        refine ⟨fun _ => ⟨v, ?_⟩, fun _ => rfl⟩
        rw [show s.start + i = a from by omega]
        simp
      · rw [if_neg hia, c3]
        refine ⟨fun ⟨w, hw⟩ => ⟨w, List.mem_append_left _ hw⟩, fun ⟨w, hw⟩ => ?_⟩
        rcases List.mem_append.mp hw with hw | hw
        · exact ⟨w, hw⟩
        · injection List.mem_singleton.mp hw with e
          omega
  · exact ⟨a % 8, Nat.mod_lt _ (by norm_num), if_pos rfl⟩

/-- a complete word is flushed. -/
private theorem flush_full {mem : ℕ → ℕ} {l : List (ℕ × ℕ)} {s : St} (h : Inv mem l s) (hs : s.start ≠ 0)
    (hf : ∀ i < 8, s.have_ i = true) : Inv mem l s.flush := by
  obtain ⟨b1, b2, b3, b4, b5, b6, b7⟩ := h.busy hs
  obtain ⟨m1, m2⟩ := flush_mem h hs
  refine ⟨h.unlocked, m1, fun a ha _ => m2 a ha, fun _ => ⟨fun i => ⟨rfl, rfl⟩, ?_⟩, fun h => absurd rfl h⟩
  rintro a h1 h2 ⟨p, hp, e⟩
  obtain ⟨q, hq, e2⟩ := b4
  have := h1 q hq
  have := b5 p hp
  obtain ⟨w, hw⟩ := (b6 (a - s.start) (by omega)).2.2.mp (hf _ (by omega))
  exact h2 _ hw (by simp only; omega)

private theorem program_inv {mem : ℕ → ℕ} {l : List (ℕ × ℕ)} {s : St} {a v : ℕ} (h : Inv mem l s)
    (ha : 0x807f000 ≤ a ∧ a < 0x8080000) (hle : ∀ p ∈ l, p.1 / 8 ≤ a / 8) (hne : ∀ p ∈ l, p.1 ≠ a) :
    Inv mem (l ++ [(a, v)]) (s.program a v) := by
  have key : Inv mem (l ++ [(a, v)]) (put (if a / 8 * 8 ≠ s.start ∧ s.start ≠ 0 then s.flush else s) a v) := by
    by_cases hs : s.start = 0
    · rw [if_neg (fun h => h.2 hs)]
      obtain ⟨i1, i2⟩ := h.idle hs
      exact put_new h.unlocked h.outside (fun b hb => h.inside b hb fun hc => hc.1 hs) i1 (i2 a hle hne) ha hle
    · by_cases hst : a / 8 * 8 = s.start
      · rw [if_neg (fun h => h.1 hst)]
        exact put_same h hs hst hne
      · rw [if_pos ⟨hst, hs⟩]
        obtain ⟨b1, -, -, b4, b5, -, -⟩ := h.busy hs
        obtain ⟨m1, m2⟩ := flush_mem h hs
        refine put_new h.unlocked m1 m2 (fun i => ⟨rfl, rfl⟩) ?_ ha hle
        rintro ⟨p, hp, e⟩
        obtain ⟨q, hq, e2⟩ := b4
        have := b5 p hp
        have := hle q hq
        omega
  rw [program_eq]
  generalize put (if a / 8 * 8 ≠ s.start ∧ s.start ≠ 0 then s.flush else s) a v = t at key ⊢
  by_cases hf : ∀ i : ℕ, i < 8 → t.have_ i = true
  · rw [if_pos hf]
    refine flush_full key (fun h0 => ?_) hf
    have := (key.idle h0).1 0
    rw [hf 0 (by norm_num)] at this
    cases this.2
  · rw [if_neg hf]
    exact key

private theorem run_append (s : St) (l m : List Op) : run s (l ++ m) = (run s l).bind (run · m) := by
  induction l generalizing s with
  | nil => rfl
  | cons o os ih =>
    simp only [List.cons_append, run]
    cases s.step o with
    | none => rfl
    | some t => exact ih t

private theorem programs_inv {mem : ℕ → ℕ} {s : St} (h : Inv mem [] s) (l : List (ℕ × ℕ)) (ho : Ordered l)
    (hi : Inside l) : ∃ t, run s (l.map fun p : ℕ × ℕ => Op.program p.1 p.2) = some t ∧ Inv mem l t := by
  induction l using List.reverseRecOn with
  | nil => exact ⟨s, rfl, h⟩
  | append_singleton l p ih =>
    obtain ⟨o1, -, o3⟩ := List.pairwise_append.mp ho
    obtain ⟨t, ht, hinv⟩ := ih o1 fun q hq => hi q (List.mem_append_left _ hq)
    refine ⟨t.program p.1 p.2, ?_, ?_⟩
    · rw [List.map_append, run_append, ht]
      rfl
    · exact program_inv hinv (hi p (by simp)) (fun q hq => (o3 q hq p (by simp)).1)
        fun q hq => (o3 q hq p (by simp)).2

private theorem unique {l : List (ℕ × ℕ)} (ho : Ordered l) {a x y : ℕ} (h1 : (a, x) ∈ l) (h2 : (a, y) ∈ l) :
    x = y := by
  induction l with
  | nil => cases h1
  | cons p l ih =>
    obtain ⟨o1, o2⟩ := List.pairwise_cons.mp ho
    rcases List.mem_cons.mp h1 with e1 | h1 <;> rcases List.mem_cons.mp h2 with e2 | h2
    · exact congrArg Prod.snd (e1.trans e2.symm)
    · exact absurd (congrArg Prod.fst e1).symm (o1 _ h2).2
    · exact absurd (congrArg Prod.fst e2).symm (o1 _ h1).2
    · exact ih o2 h1 h2

/-- **C107, saving.** Whatever the flash held, after bytes were saved in an order that it can take, every byte
is where it was put; a byte that was not written is 0 if another one of its word was and 255 otherwise;
nothing outside of the region of the configuration changes. -/
theorem C107_saved (mem : ℕ → ℕ) (l : List (ℕ × ℕ)) (ho : Ordered l) (hi : Inside l) :
    ∃ s, run (St.init mem) (save l) = some s ∧ s.locked = true ∧
      (∀ p ∈ l, s.mem p.1 = p.2) ∧
      (∀ a, 0x807f000 ≤ a ∧ a < 0x8080000 → (∀ p ∈ l, p.1 ≠ a) →
        (Touched l a → s.mem a = 0) ∧ (¬ Touched l a → s.mem a = 255)) ∧
      ∀ a, ¬ (0x807f000 ≤ a ∧ a < 0x8080000) → s.mem a = mem a := by
  have h0 : Inv mem [] ⟨0, fun _ => 0, fun _ => false, erasePages 126 2 mem, false⟩ := by
    have hb : ∀ a, (pageStart 126 ≤ a ∧ a < pageStart (126 + 2)) ↔ (0x807f000 ≤ a ∧ a < 0x8080000) := fun a => Iff.rfl
    refine ⟨rfl, fun a ha => if_neg (mt (hb a).mp ha), fun a ha _ => ?_,
      fun _ => ⟨fun i => ⟨rfl, rfl⟩, ?_⟩, fun h => absurd rfl h⟩
    · right
      exact ⟨by simp, (fun ⟨p, hp, _⟩ => by cases hp), fun _ => if_pos ((hb a).mpr ha)⟩
    · rintro a - - ⟨p, hp, _⟩
      cases hp
  obtain ⟨t, ht, hinv⟩ := programs_inv h0 l ho hi
  have hrun : run (St.init mem) (save l) =
      some { (if ∃ i : ℕ, i < 8 ∧ t.have_ i = true then t.flush else t) with locked := true } := by
    unfold save
    rw [List.append_assoc, run_append]
    show run (⟨0, fun _ => 0, fun _ => false, erasePages 126 2 mem, false⟩ : St) _ = _
    rw [run_append, ht]
    rfl
  have hfin : (∀ a, ¬ (0x807f000 ≤ a ∧ a < 0x8080000) →
        (if ∃ i : ℕ, i < 8 ∧ t.have_ i = true then t.flush else t).mem a = mem a) ∧
      ∀ a, 0x807f000 ≤ a ∧ a < 0x8080000 → Img l a ((if ∃ i : ℕ, i < 8 ∧ t.have_ i = true then t.flush else t).mem a) := by
    by_cases hs : t.start = 0
    · rw [if_neg (by rintro ⟨i, -, hc⟩; rw [((hinv.idle hs).1 i).2] at hc; cases hc)]
      exact ⟨hinv.outside, fun a ha => hinv.inside a ha fun hc => hc.1 hs⟩
    · rw [if_pos (hinv.busy hs).2.2.2.2.2.2]
      exact flush_mem hinv hs
  refine ⟨_, hrun, rfl, fun p hp => ?_, fun a ha hn => ?_, hfin.1⟩
  · show (if ∃ i : ℕ, i < 8 ∧ t.have_ i = true then t.flush else t).mem p.1 = p.2
    rcases hfin.2 p.1 (hi p hp) with hm | ⟨hm, -⟩
    · exact unique ho hm hp
    · exact absurd hp (hm p.2)
  · rcases hfin.2 a ha with hm | ⟨-, hm⟩
    · exact absurd rfl (hn _ hm)
    · exact hm

/-- the hypotheses of `C107_saved`: eleven bytes, the last ones with a gap. -/
example : Ordered ((List.range 10).map (fun i => (0x807f000 + i, 7 * i)) ++ [(0x807f020, 9)]) ∧
    Inside ((List.range 10).map (fun i => (0x807f000 + i, 7 * i)) ++ [(0x807f020, 9)]) := by
  constructor
  · unfold Ordered
    decide
  · unfold Inside
    decide

/-- **C107, erasing.** What is erased is the region that the configuration is told to use. -/
theorem C107_region {s t : St} (h : s.step .erase = some t) (a : ℕ) :
    t.mem a = if infoStart ≤ a ∧ a < infoEnd then 255 else s.mem a := by
  unfold St.step at h
  simp only at h
  split at h
  · cases h
  · rw [← Option.some.inj h]
    rfl

example : ((St.init fun _ => 0).step .unlock).bind (·.step .erase) ≠ none := by
  simp [St.step]

private theorem program_locked {s : St} (h : s.locked = true) (a v : ℕ) :
    (s.program a v).locked = true ∧ (s.program a v).mem = s.mem := by
  have hf : ∀ {s : St}, s.locked = true → s.flush.locked = true ∧ s.flush.mem = s.mem := by
    intro s h
    refine ⟨h, ?_⟩
    show (if s.locked then s.mem else _) = _
    rw [if_pos h]
  have h1 : (if a / 8 * 8 ≠ s.start ∧ s.start ≠ 0 then s.flush else s).locked = true ∧
      (if a / 8 * 8 ≠ s.start ∧ s.start ≠ 0 then s.flush else s).mem = s.mem := by
    split
    · exact hf h
    · exact ⟨h, rfl⟩
  rw [program_eq]
  generalize (if a / 8 * 8 ≠ s.start ∧ s.start ≠ 0 then s.flush else s) = t at h1 ⊢
  by_cases hc : ∀ i : ℕ, i < 8 → (put t a v).have_ i = true
  · rw [if_pos hc]
    obtain ⟨f1, f2⟩ := hf (s := put t a v) h1.1
    exact ⟨f1, f2.trans h1.2⟩
  · rw [if_neg hc]
    exact h1

/-- **C107, locked.** Until the flash is unlocked nothing in it changes, whatever is called. -/
theorem C107_locked {s t : St} (hs : s.locked = true) {os : List Op} (ho : Op.unlock ∉ os) (h : run s os = some t) :
    t.mem = s.mem ∧ t.locked = true := by
  induction os generalizing s with
  | nil => rw [← Option.some.inj h]; exact ⟨rfl, hs⟩
  | cons o os ih =>
    rw [List.mem_cons, not_or] at ho
    unfold run at h
    cases o with
    | unlock => exact absurd rfl ho.1
    | lock =>
      simp only [St.step, Option.bind_some] at h
      obtain ⟨h1, h2⟩ := ih rfl ho.2 h
      refine ⟨h1.trans ?_, h2⟩
      by_cases hc : ∃ i : ℕ, i < 8 ∧ s.have_ i = true
      · show (if ∃ i : ℕ, i < 8 ∧ s.have_ i = true then s.flush else s).mem = s.mem
        rw [if_pos hc]
        show (if s.locked then s.mem else _) = _
        rw [if_pos hs]
      · show (if ∃ i : ℕ, i < 8 ∧ s.have_ i = true then s.flush else s).mem = s.mem
        rw [if_neg hc]
    | erase =>
      simp only [St.step, hs, if_true, Option.bind_none, reduceCtorEq] at h
    | program a v =>
      simp only [St.step, Option.bind_some] at h
      obtain ⟨p1, p2⟩ := program_locked hs a v
      obtain ⟨h1, h2⟩ := ih p1 ho.2 h
      exact ⟨h1.trans p2, h2⟩

example : Op.unlock ∉ [Op.program 0x807f000 1, .lock] ∧
    (run (St.init fun _ => 3) [Op.program 0x807f000 1, .lock]).isSome = true := ⟨by simp, rfl⟩

/-! ## violations -/

/-- **C107 is violated: one byte twice** gives the union of the bits. -/
theorem C107_twice_refuted :
    (run (St.init fun _ => 0) (save [(0x807f000, 1), (0x807f000, 2)])).map (·.mem 0x807f000) = some 3 := by
  decide +kernel

/-- **C107 is violated: a return to an earlier word** loses the byte; nobody is told. -/
theorem C107_back_refuted :
    (run (St.init fun _ => 0) (save [(0x807f000, 1), (0x807f008, 2), (0x807f001, 5)])).map
      (fun s => [s.mem 0x807f000, s.mem 0x807f008, s.mem 0x807f001]) = some [1, 2, 0] := by
  decide +kernel

/-- **C107 is violated: a pause in the middle of a word** loses what follows; nobody is told. -/
theorem C107_pause_refuted :
    (run (St.init fun _ => 0) [.unlock, .erase, .program 0x807f000 1, .lock, .unlock, .program 0x807f001 5,
      .lock]).map (fun s => [s.mem 0x807f000, s.mem 0x807f001]) = some [1, 0] := by
  decide +kernel

/-- **C107 is violated: a byte that holds something** keeps it; nobody is told. -/
theorem C107_again_refuted :
    (run (St.init fun _ => 0) [.unlock, .erase, .program 0x807f000 1, .lock, .unlock, .program 0x807f000 3,
      .lock]).map (·.mem 0x807f000) = some 1 := by
  decide +kernel

end Verif.Fw.ConfigFlash
