import Verif.Flash.Writer

/-! # The flash writer: contents of the memory after an upload -/

namespace Verif.Flash

open Verif Spec

section
variable {σ : Type} (hw : Hw σ)

/-- Invariant of an upload: `done` are the bytes programmed so far, `m0` the
memory before. -/
structure Inv (m0 : Mem) (done : List (Nat × UInt8)) (w : Writer σ) : Prop where
  unl : w.locked = false
  val : ∀ p ∈ done, Valid p.1
  st : w.shadowStart ≠ 0 → Valid w.shadowStart ∧ w.shadowStart % 8 = 0
  bb : ∀ i < 8, byteAt w.shadowBits i = 0xff ∨ byteAt w.shadowBits i = 0
  sb : w.shadowStart = 0 ↔ w.shadowBits = 0
  pend : ∀ i < 8, byteAt w.shadowBits i = 0xff → (w.shadowStart + i, byteAt w.shadow i) ∈ done
  cov : ∀ p ∈ done, p.1 / 8 * 8 = w.shadowStart →
    byteAt w.shadowBits (p.1 % 8) = 0xff ∧ byteAt w.shadow (p.1 % 8) = p.2
  flushed : ∀ p ∈ done, p.1 / 8 * 8 ≠ w.shadowStart →
    w.mem p.1 = p.2 ∧ w.sectorsErased (sectorIndex p.1) = true
  other : ∀ a, (∀ p ∈ done, p.1 / 2048 ≠ a / 2048) → w.mem a = m0 a
  blank : ∀ a, Valid a → w.sectorsErased (sectorIndex a) = true →
    (∀ p ∈ done, p.1 / 8 * 8 ≠ w.shadowStart → p.1 / 8 ≠ a / 8) → w.mem a = 0xff

variable {hw}

theorem flash_of_valid {a : Nat} (h : Valid a) : 0x08000000 ≤ a ∧ a < 0x08080000 := ⟨h.1, h.2.1⟩

/-- Some byte of the current word has been given. -/
theorem Inv.some_pending {m0 : Mem} {done : List (Nat × UInt8)} {w : Writer σ} (h : Inv m0 done w)
    (hs : w.shadowStart ≠ 0) : ∃ p ∈ done, p.1 / 8 * 8 = w.shadowStart := by
  have hb : w.shadowBits ≠ 0 := fun h0 => hs (h.sb.mpr h0)
  have : ∃ i < 8, byteAt w.shadowBits i = 0xff := by
    by_contra hc
    apply hb
    rw [empty_iff]
    intro i hi
    rcases h.bb i hi with h1 | h1
    · exact absurd ⟨i, hi, h1⟩ hc
    · exact h1
  obtain ⟨i, hi, h1⟩ := this
  refine ⟨_, h.pend i hi h1, ?_⟩
  have := (h.st hs).2
  simp only; omega

theorem maybeErase_inv (hS : SoundHw hw) {m0 : Mem} {done : List (Nat × UInt8)} {w : Writer σ}
    (h : Inv m0 done w) (hs : w.shadowStart ≠ 0)
    (h0 : (w.maybeEraseSector hw w.shadowStart).1 = 0) :
    Inv m0 done (w.maybeEraseSector hw w.shadowStart).2 ∧
    (w.maybeEraseSector hw w.shadowStart).2.shadowStart = w.shadowStart ∧
    (w.maybeEraseSector hw w.shadowStart).2.shadow = w.shadow ∧
    (w.maybeEraseSector hw w.shadowStart).2.shadowBits = w.shadowBits ∧
    (w.maybeEraseSector hw w.shadowStart).2.sectorsErased (sectorIndex w.shadowStart) = true := by
  unfold Writer.maybeEraseSector at h0 ⊢
  split
  · next he => exact ⟨h, rfl, rfl, rfl, he⟩
  · next hne =>
    rw [if_neg hne] at h0
    simp only at h0 ⊢
    by_cases he : (w.eraseSector hw (bankOf w.shadowStart) (sectorOf w.shadowStart)).1 ≠ 0
    · rw [if_pos he] at h0; exact absurd h0 he
    · rw [if_neg he]
      have he' : (hw.erase w.hw w.mem (bankOf w.shadowStart) (sectorOf w.shadowStart)).1 = 0 := by
        simpa [Writer.eraseSector] using he
      have hv := (h.st hs).1
      have hfl := flash_of_valid hv
      have hnot : ∀ a, Valid a → a / 2048 ≠ w.shadowStart / 2048 →
          sectorIndex a ≠ sectorIndex w.shadowStart := by
        intro a ha hd e
        exact hd ((sectorIndex_iff _ _ (flash_of_valid ha) hfl).mp e)
      have hmem1 : ∀ a, a / 2048 ≠ w.shadowStart / 2048 →
          (hw.erase w.hw w.mem (bankOf w.shadowStart) (sectorOf w.shadowStart)).2.1 a = w.mem a := by
        intro a ha
        apply hS.erase
        rw [inSector_iff _ _ hfl]; omega
      have hmem2 : ∀ a, a / 2048 = w.shadowStart / 2048 →
          (hw.erase w.hw w.mem (bankOf w.shadowStart) (sectorOf w.shadowStart)).2.1 a = 0xff := by
        intro a ha
        apply hS.eraseOk _ _ _ _ _ he'
        rw [inSector_iff _ _ hfl]; omega
      refine ⟨⟨h.unl, h.val, h.st, h.bb, h.sb, h.pend, h.cov, ?_, ?_, ?_⟩, rfl, rfl, rfl, by simp⟩
      · intro p hp hpn
        obtain ⟨e1, e2⟩ := h.flushed p hp hpn
        have hds : p.1 / 2048 ≠ w.shadowStart / 2048 := by
          intro e
          rw [(sectorIndex_iff _ _ (flash_of_valid (h.val p hp)) hfl).mpr e] at e2
          rw [e2] at hne
          exact hne rfl
        simp only [Writer.eraseSector]
        refine ⟨by rw [hmem1 _ hds]; exact e1, ?_⟩
        rw [if_neg (hnot _ (h.val p hp) hds)]
        exact e2
      · intro a ha
        simp only [Writer.eraseSector]
        obtain ⟨p, hp, hpw⟩ := h.some_pending hs
        have hd := ha p hp
        rw [hmem1 a (by omega)]
        exact h.other a ha
      · intro a hva hea ha
        simp only [Writer.eraseSector] at hea ⊢
        by_cases hd : a / 2048 = w.shadowStart / 2048
        · exact hmem2 a hd
        · rw [hmem1 a hd]
          rw [if_neg (hnot a hva hd)] at hea
          exact h.blank a hva hea ha

theorem maybeErase_good (hG : GoodHw hw) (w : Writer σ) (a : Nat) :
    (w.maybeEraseSector hw a).1 = 0 := by
  unfold Writer.maybeEraseSector
  split
  · rfl
  · have : (w.eraseSector hw (bankOf a) (sectorOf a)).1 = 0 := hG.eraseSucceeds _ _ _ _
    simp [this]

theorem word_eq {a s : Nat} (h : s % 8 = 0) : a / 8 * 8 = s ↔ s ≤ a ∧ a < s + 8 := by omega

theorem all_iff (m : Mem) (s : Nat) (v : BitVec 64) :
    ((List.range 8).all fun i => m (s + i) == byteAt v i) = true ↔
      ∀ i < 8, m (s + i) = byteAt v i := by
  simp [List.all_eq_true]

theorem flush_inv (hS : SoundHw hw) {m0 : Mem} {done : List (Nat × UInt8)} {w : Writer σ}
    (h : Inv m0 done w) (hs : w.shadowStart ≠ 0) (h0 : (w.flushWord hw).1 = 0) :
    Inv m0 done (w.flushWord hw).2 ∧ (w.flushWord hw).2.shadowStart = 0 := by
  have hfst : (w.maybeEraseSector hw w.shadowStart).1 = 0 := by
    by_contra hc
    unfold Writer.flushWord at h0
    simp only [ne_eq, hc, not_false_eq_true, if_true] at h0
  obtain ⟨h1, h2, h3, h4, h5⟩ := maybeErase_inv hS h hs hfst
  unfold Writer.flushWord at h0 ⊢
  generalize w.maybeEraseSector hw w.shadowStart = r at *
  obtain ⟨e, w1⟩ := r
  simp only at hfst h1 h2 h3 h4 h5
  subst hfst
  simp only [ne_eq, not_true_eq_false, if_false] at h0 ⊢
  have hs1 : w1.shadowStart ≠ 0 := by rw [h2]; exact hs
  obtain ⟨hv, h8⟩ := h1.st hs1
  -- the memory after programming
  have hmem : ∃ m : Mem, (∀ i < 8, m (w1.shadowStart + i) = byteAt w1.shadow i) ∧
      (∀ a, a / 8 * 8 ≠ w1.shadowStart → m a = w1.mem a) ∧
      (if ((List.range 8).all fun i => w1.mem (w1.shadowStart + i) == byteAt w1.shadow i) = true
        then (0, w1)
        else ((hw.program w1.hw w1.mem w1.shadowStart w1.shadow).1, { w1 with
          mem := (hw.program w1.hw w1.mem w1.shadowStart w1.shadow).2.1
          hw := (hw.program w1.hw w1.mem w1.shadowStart w1.shadow).2.2
          log := w1.log ++ [(w1.locked, Action.program w1.shadowStart)] }) : Nat × Writer σ).2.mem = m := by
    by_cases hall : ((List.range 8).all fun i => w1.mem (w1.shadowStart + i) == byteAt w1.shadow i) = true
    · rw [if_pos hall]
      exact ⟨w1.mem, (all_iff _ _ _).mp hall, fun _ _ => rfl, rfl⟩
    · rw [if_neg hall] at h0 ⊢
      refine ⟨_, fun i hi => hS.programOk _ _ _ _ _ h0 hi, ?_, rfl⟩
      intro a ha
      apply hS.program
      rwa [← word_eq h8]
  obtain ⟨m, hm1, hm2, hm3⟩ := hmem
  have hunl : (if ((List.range 8).all fun i => w1.mem (w1.shadowStart + i) == byteAt w1.shadow i) = true
        then (0, w1)
        else ((hw.program w1.hw w1.mem w1.shadowStart w1.shadow).1, { w1 with
          mem := (hw.program w1.hw w1.mem w1.shadowStart w1.shadow).2.1
          hw := (hw.program w1.hw w1.mem w1.shadowStart w1.shadow).2.2
          log := w1.log ++ [(w1.locked, Action.program w1.shadowStart)] }) : Nat × Writer σ).2.locked = false := by
    split <;> exact h1.unl
  have her : (if ((List.range 8).all fun i => w1.mem (w1.shadowStart + i) == byteAt w1.shadow i) = true
        then (0, w1)
        else ((hw.program w1.hw w1.mem w1.shadowStart w1.shadow).1, { w1 with
          mem := (hw.program w1.hw w1.mem w1.shadowStart w1.shadow).2.1
          hw := (hw.program w1.hw w1.mem w1.shadowStart w1.shadow).2.2
          log := w1.log ++ [(w1.locked, Action.program w1.shadowStart)] }) : Nat × Writer σ).2.sectorsErased =
      w1.sectorsErased := by
    split <;> rfl
  have hword : ∀ p ∈ done, p.1 / 8 * 8 = w1.shadowStart → m p.1 = p.2 := by
    intro p hp hpw
    have e : p.1 = w1.shadowStart + p.1 % 8 := by omega
    have hc := (h1.cov p hp hpw).2
    have h9 := hm1 (p.1 % 8) (Nat.mod_lt _ (by omega))
    rw [← e, hc] at h9
    exact h9
  have hne0 : ∀ p ∈ done, p.1 / 8 * 8 ≠ 0 := by
    intro p hp
    have := (h1.val p hp).1
    omega
  refine ⟨⟨hunl, h1.val, fun hc => absurd rfl hc, ?_, by simp, ?_, ?_, ?_, ?_, ?_⟩, trivial⟩
  · intro i _; right; exact byteAt_zero i
  · intro i _ hi
    simp only at hi
    rw [byteAt_zero] at hi
    exact absurd hi (by decide)
  · intro p hp hpw; exact absurd hpw (hne0 p hp)
  · intro p hp _
    simp only
    rw [hm3, her]
    by_cases hpw : p.1 / 8 * 8 = w1.shadowStart
    · refine ⟨hword p hp hpw, ?_⟩
      have : sectorIndex p.1 = sectorIndex w.shadowStart := by
        rw [sectorIndex_iff _ _ (flash_of_valid (h1.val p hp)) (flash_of_valid (by rw [← h2]; exact hv))]
        rw [h2] at hpw; omega
      rw [this]; exact h5
    · rw [hm2 _ hpw]; exact h1.flushed p hp hpw
  · intro a ha
    simp only
    rw [hm3]
    obtain ⟨p, hp, hpw⟩ := h1.some_pending hs1
    have hd := ha p hp
    rw [hm2 a (by omega)]
    exact h1.other a ha
  · intro a hva hea ha
    simp only at hea ⊢
    rw [her] at hea
    rw [hm3]
    obtain ⟨p, hp, hpw⟩ := h1.some_pending hs1
    have hd := ha p hp (hne0 p hp)
    rw [hm2 a (by omega)]
    exact h1.blank a hva hea (fun q hq _ => ha q hq (hne0 q hq))

theorem flush_good (hG : GoodHw hw) {m0 : Mem} {done : List (Nat × UInt8)} {w : Writer σ}
    (h : Inv m0 done w) (hs : w.shadowStart ≠ 0) : (w.flushWord hw).1 = 0 := by
  have hfst := maybeErase_good hG w w.shadowStart
  obtain ⟨h1, h2, h3, h4, h5⟩ := maybeErase_inv hG.toSoundHw h hs hfst
  unfold Writer.flushWord
  generalize w.maybeEraseSector hw w.shadowStart = r at *
  obtain ⟨e, w1⟩ := r
  simp only at hfst h1 h2 h3 h4 h5
  subst hfst
  simp only [ne_eq, not_true_eq_false, if_false]
  split
  · rfl
  · apply hG.programSucceeds
    have hs1 : w1.shadowStart ≠ 0 := by rw [h2]; exact hs
    obtain ⟨hv, h8⟩ := h1.st hs1
    intro i hi
    have hva : Valid (w1.shadowStart + i) := valid_sector hv (by omega)
    apply h1.blank _ hva
    · rw [(sectorIndex_iff _ _ (flash_of_valid hva) (flash_of_valid hv)).mpr (by omega), h2]
      exact h5
    · intro p hp hpw; omega

/-- Setting one byte of the shadow word. -/
theorem put_inv {m0 : Mem} {done : List (Nat × UInt8)} {w : Writer σ} (h : Inv m0 done w)
    (a : Nat) (v : UInt8) (ha : Valid a) (hst : w.shadowStart = 0 ∨ w.shadowStart = a / 8 * 8)
    (hnew : ∀ p ∈ done, p.1 ≠ a ∧ (p.1 / 8 = a / 8 → w.shadowStart ≠ 0)) :
    Inv m0 (done ++ [(a, v)]) { w with
      shadowStart := a / 8 * 8
      shadow := (w.shadow &&& ~~~ (0xff#64 <<< (a % 8 * 8))) ||| (v.toBitVec.setWidth 64 <<< (a % 8 * 8))
      shadowBits := w.shadowBits ||| (0xff#64 <<< (a % 8 * 8)) } := by
  have ho : a % 8 < 8 := Nat.mod_lt _ (by omega)
  have hne : a / 8 * 8 ≠ 0 := by unfold Valid at ha; omega
  have hput := fun i hi => byteAt_put w.shadow (a % 8) v i hi ho
  have hbit := fun i hi => byteAt_bits w.shadowBits (a % 8) i hi ho
  -- bytes of the same word are pending
  have hsame : ∀ p ∈ done, p.1 / 8 * 8 = a / 8 * 8 → w.shadowStart = a / 8 * 8 := by
    intro p hp hw'
    rcases hst with h0 | h0
    · exact absurd h0 ((hnew p hp).2 (by omega))
    · exact h0
  have hflushed : ∀ p ∈ done, p.1 / 8 * 8 ≠ a / 8 * 8 → p.1 / 8 * 8 ≠ w.shadowStart := by
    intro p hp hne'
    have := (h.val p hp).1
    rcases hst with h0 | h0 <;> omega
  refine ⟨h.unl, ?_, ?_, ?_, ?_, ?_, ?_, ?_, ?_, ?_⟩
  · intro p hp
    rcases List.mem_append.mp hp with hp | hp
    · exact h.val p hp
    · simp only [List.mem_singleton] at hp; subst hp; exact ha
  · intro _; exact ⟨valid_sector ha (by simp only; omega), by simp⟩
  · intro i hi
    simp only
    rw [hbit i hi]
    split
    · left; rfl
    · exact h.bb i hi
  · simp only
    constructor
    · intro h0; exact absurd h0 hne
    · intro h0; exact absurd h0 (bits_ne_zero w.shadowBits (a % 8) ho)
  · intro i hi hb
    simp only at hb ⊢
    rw [hbit i hi] at hb
    rw [hput i hi]
    by_cases hio : i = a % 8
    · subst hio
      rw [if_pos rfl]
      apply List.mem_append_right
      simp only [List.mem_singleton, Prod.mk.injEq, and_true]
      omega
    · rw [if_neg hio] at hb ⊢
      apply List.mem_append_left
      have := h.pend i hi hb
      rcases hst with h0 | h0
      · rw [h.sb.mp h0, byteAt_zero] at hb
        exact absurd hb (by decide)
      · rw [← h0]; exact this
  · intro p hp hpw
    simp only at hpw ⊢
    have hp8 : p.1 % 8 < 8 := Nat.mod_lt _ (by omega)
    rw [hbit _ hp8, hput _ hp8]
    rcases List.mem_append.mp hp with hp | hp
    · have hpa := (hnew p hp).1
      have : p.1 % 8 ≠ a % 8 := by omega
      rw [if_neg this, if_neg this]
      exact h.cov p hp (by rw [hpw, hsame p hp hpw])
    · simp only [List.mem_singleton] at hp
      subst hp
      simp
  · intro p hp hpw
    simp only at hpw ⊢
    rcases List.mem_append.mp hp with hp | hp
    · exact h.flushed p hp (hflushed p hp hpw)
    · simp only [List.mem_singleton] at hp
      subst hp
      exact absurd rfl hpw
  · intro b hb
    exact h.other b (fun p hp => hb p (List.mem_append_left _ hp))
  · intro b hvb hsb hb
    apply h.blank b hvb hsb
    intro p hp hpw
    apply hb p (List.mem_append_left _ hp)
    simp only
    intro hc
    exact hpw (by rw [hc, hsame p hp hc])

/-- Order of the addresses: a later byte can only fall into a word that is
still pending. -/
structure Order (done : List (Nat × UInt8)) (w : Writer σ) : Prop where
  some : w.shadowStart ≠ 0 → ∀ p ∈ done, p.1 / 8 * 8 ≤ w.shadowStart
  none : w.shadowStart = 0 → ∀ b, (∀ p ∈ done, p.1 < b) → ∀ p ∈ done, p.1 / 8 < b / 8

theorem putByte_inv (hS : SoundHw hw) {m0 : Mem} {done : List (Nat × UInt8)} {w : Writer σ}
    (h : Inv m0 done w) (a : Nat) (v : UInt8) (ha : Valid a)
    (hst : w.shadowStart = 0 ∨ w.shadowStart = a / 8 * 8)
    (hlt : ∀ p ∈ done, p.1 < a) (hw8 : w.shadowStart = 0 → ∀ p ∈ done, p.1 / 8 < a / 8)
    (h0 : (w.putByte hw a v).1 = 0) :
    Inv m0 (done ++ [(a, v)]) (w.putByte hw a v).2 ∧
    Order (done ++ [(a, v)]) (w.putByte hw a v).2 := by
  have hne : a / 8 * 8 ≠ 0 := by unfold Valid at ha; omega
  have hp := put_inv h a v ha hst (fun p hp => ⟨by have := hlt p hp; omega, fun he h0 => by
    have := hw8 h0 p hp; omega⟩)
  unfold Writer.putByte at h0 ⊢
  simp only at h0 ⊢
  by_cases hf : w.shadowBits ||| (0xff#64 <<< (a % 8 * 8)) = ~~~ 0
  · rw [if_pos hf] at h0 ⊢
    obtain ⟨f1, f2⟩ := flush_inv hS hp hne h0
    refine ⟨f1, ⟨fun hc => absurd f2 hc, ?_⟩⟩
    intro _ b hb p hpm
    have h7 := hp.pend 7 (by omega) (by rw [hf]; exact byteAt_ones 7 (by omega))
    have hb7 := hb _ h7
    simp only at hb7
    rcases List.mem_append.mp hpm with hpm | hpm
    · have := hlt p hpm; omega
    · simp only [List.mem_singleton] at hpm; subst hpm; simp only; omega
  · rw [if_neg hf]
    refine ⟨hp, ⟨?_, fun hc => absurd hc hne⟩⟩
    intro _ p hpm
    simp only
    rcases List.mem_append.mp hpm with hpm | hpm
    · have := hlt p hpm; omega
    · simp only [List.mem_singleton] at hpm; subst hpm; exact Nat.le_refl _

theorem putByte_good (hG : GoodHw hw) {m0 : Mem} {done : List (Nat × UInt8)} {w : Writer σ}
    (h : Inv m0 done w) (a : Nat) (v : UInt8) (ha : Valid a)
    (hst : w.shadowStart = 0 ∨ w.shadowStart = a / 8 * 8)
    (hlt : ∀ p ∈ done, p.1 < a) (hw8 : w.shadowStart = 0 → ∀ p ∈ done, p.1 / 8 < a / 8) :
    (w.putByte hw a v).1 = 0 := by
  have hne : a / 8 * 8 ≠ 0 := by unfold Valid at ha; omega
  have hp := put_inv h a v ha hst (fun p hp => ⟨by have := hlt p hp; omega, fun he h0 => by
    have := hw8 h0 p hp; omega⟩)
  unfold Writer.putByte
  simp only
  by_cases hf : w.shadowBits ||| (0xff#64 <<< (a % 8 * 8)) = ~~~ 0
  · rw [if_pos hf]; exact flush_good hG hp hne
  · rw [if_neg hf]

theorem programByte_inv (hS : SoundHw hw) {m0 : Mem} {done : List (Nat × UInt8)} {w : Writer σ}
    (h : Inv m0 done w) (ho : Order done w) (a : Nat) (v : UInt8) (ha : Valid a)
    (hlt : ∀ p ∈ done, p.1 < a) (h0 : (w.programByte hw a v).1 = 0) :
    Inv m0 (done ++ [(a, v)]) (w.programByte hw a v).2 ∧
    Order (done ++ [(a, v)]) (w.programByte hw a v).2 := by
  unfold Writer.programByte at h0 ⊢
  by_cases hc : a / 8 * 8 ≠ w.shadowStart ∧ w.shadowStart ≠ 0
  · rw [if_pos hc] at h0 ⊢
    simp only at h0 ⊢
    by_cases he : (w.flushWord hw).1 ≠ 0
    · rw [if_pos he] at h0; exact absurd h0 he
    · rw [if_neg he] at h0 ⊢
      obtain ⟨f1, f2⟩ := flush_inv hS h hc.2 (by simpa using he)
      apply putByte_inv hS f1 a v ha (Or.inl f2) hlt _ h0
      intro _ p hp
      have h1 := ho.some hc.2 p hp
      obtain ⟨q, hq, hqw⟩ := h.some_pending hc.2
      have := hlt q hq
      omega
  · rw [if_neg hc] at h0 ⊢
    apply putByte_inv hS h a v ha (by omega) hlt _ h0
    intro hz p hp
    exact ho.none hz a hlt p hp

theorem programByte_good (hG : GoodHw hw) {m0 : Mem} {done : List (Nat × UInt8)} {w : Writer σ}
    (h : Inv m0 done w) (ho : Order done w) (a : Nat) (v : UInt8) (ha : Valid a)
    (hlt : ∀ p ∈ done, p.1 < a) : (w.programByte hw a v).1 = 0 := by
  unfold Writer.programByte
  by_cases hc : a / 8 * 8 ≠ w.shadowStart ∧ w.shadowStart ≠ 0
  · rw [if_pos hc]
    have hf := flush_good hG h hc.2
    obtain ⟨f1, f2⟩ := flush_inv hG.toSoundHw h hc.2 hf
    simp only [ne_eq, hf, not_true_eq_false, if_false]
    apply putByte_good hG f1 a v ha (Or.inl f2) hlt
    intro _ p hp
    have h1 := ho.some hc.2 p hp
    obtain ⟨q, hq, hqw⟩ := h.some_pending hc.2
    have := hlt q hq
    omega
  · rw [if_neg hc]
    apply putByte_good hG h a v ha (by omega) hlt
    intro hz p hp
    exact ho.none hz a hlt p hp

/-- The bytes of a write command. -/
def natBytes (a : Nat) : Bytes → List (Nat × UInt8)
  | [] => []
  | b :: d => (a, b) :: natBytes (a + 1) d

theorem writeByte_acked {w w' : Writer σ} {a : Nat} {v : UInt8}
    (h : writeByte hw w a v = (none, w')) :
    Valid a ∧ w.locked = false ∧ w.programByte hw a v = (0, w') := by
  unfold writeByte at h
  split at h
  · simp at h
  · next hl =>
    split at h
    · simp at h
    · next h1 =>
      split at h
      · simp at h
      · next h2 =>
        simp only at h
        split at h
        · simp at h
        · next he =>
          simp only [Prod.mk.injEq, true_and] at h
          refine ⟨by unfold Valid; omega, by simpa using hl, ?_⟩
          rw [← h]
          have : (w.programByte hw a v).1 = 0 := by simpa using he
          rw [← this]

theorem writeByte_valid {w : Writer σ} {a : Nat} {v : UInt8} (ha : Valid a) (hl : w.locked = false)
    (h0 : (w.programByte hw a v).1 = 0) : writeByte hw w a v = (none, (w.programByte hw a v).2) := by
  unfold writeByte
  unfold Valid at ha
  rw [if_neg (by simp [hl]), if_neg (by omega), if_neg (by omega)]
  simp [h0]

theorem writeBytes_inv (hS : SoundHw hw) {m0 : Mem} (d : Bytes) :
    ∀ (done : List (Nat × UInt8)) (w w' : Writer σ) (a : Nat), Inv m0 done w → Order done w →
    (∀ p ∈ done, p.1 < a) → a + d.length ≤ 2 ^ 32 → writeBytes hw w a d = (none, w') →
    Inv m0 (done ++ natBytes a d) w' ∧ Order (done ++ natBytes a d) w' := by
  induction d with
  | nil =>
    intro done w w' a h ho _ _ he
    simp only [writeBytes, Prod.mk.injEq, true_and] at he
    subst he
    simpa [natBytes] using ⟨h, ho⟩
  | cons b d ih =>
    intro done w w' a h ho hlt hr he
    simp only [List.length_cons] at hr
    unfold writeBytes at he
    rw [Nat.mod_eq_of_lt (by omega)] at he
    cases hw1 : writeByte hw w a b with
    | mk m w1 =>
      rw [hw1] at he
      cases m with
      | some m => simp at he
      | none =>
        simp only at he
        obtain ⟨hv, _, hp⟩ := writeByte_acked hw1
        have h0 : (w.programByte hw a b).1 = 0 := by rw [hp]
        obtain ⟨i1, i2⟩ := programByte_inv hS h ho a b hv hlt h0
        rw [hp] at i1 i2
        have := ih (done ++ [(a, b)]) w1 w' (a + 1) i1 i2 (by
          intro p hpm
          rcases List.mem_append.mp hpm with hpm | hpm
          · have := hlt p hpm; omega
          · simp only [List.mem_singleton] at hpm; subst hpm; simp) (by omega) he
        simpa [natBytes] using this

theorem writeBytes_good (hG : GoodHw hw) {m0 : Mem} (d : Bytes) :
    ∀ (done : List (Nat × UInt8)) (w : Writer σ) (a : Nat), Inv m0 done w → Order done w →
    (∀ p ∈ done, p.1 < a) → (∀ p ∈ natBytes a d, Valid p.1) →
    ∃ w', writeBytes hw w a d = (none, w') := by
  induction d with
  | nil => intro done w a _ _ _ _; exact ⟨w, rfl⟩
  | cons b d ih =>
    intro done w a h ho hlt hv
    have hva : Valid a := hv (a, b) (by simp [natBytes])
    have h0 := programByte_good hG h ho a b hva hlt
    obtain ⟨i1, i2⟩ := programByte_inv hG.toSoundHw h ho a b hva hlt h0
    have hmod : a % 2 ^ 32 = a := by unfold Valid at hva; omega
    unfold writeBytes
    rw [hmod, writeByte_valid hva h.unl h0]
    simp only
    exact ih (done ++ [(a, b)]) _ (a + 1) i1 i2 (by
      intro p hpm
      rcases List.mem_append.mp hpm with hpm | hpm
      · have := hlt p hpm; omega
      · simp only [List.mem_singleton] at hpm; subst hpm; simp)
      (fun p hp => hv p (by simp [natBytes, hp]))

theorem lock_inv (hS : SoundHw hw) {m0 : Mem} {done : List (Nat × UInt8)} {w : Writer σ}
    (h : Inv m0 done w) (h0 : (w.lock hw).1 = 0) :
    (∀ p ∈ done, (w.lock hw).2.mem p.1 = p.2) ∧
    (∀ a, (∀ p ∈ done, p.1 / 2048 ≠ a / 2048) → (w.lock hw).2.mem a = m0 a) ∧
    (w.lock hw).2.locked = true := by
  unfold Writer.lock at h0 ⊢
  simp only [h.unl, Bool.false_eq_true, if_false] at h0 ⊢
  by_cases hb : w.shadowBits ≠ 0
  · rw [if_pos hb] at h0 ⊢
    have hs : w.shadowStart ≠ 0 := fun hc => hb (h.sb.mp hc)
    by_cases he : (w.flushWord hw).1 ≠ 0
    · rw [if_pos he] at h0; exact absurd h0 he
    · rw [if_neg he]
      obtain ⟨f1, f2⟩ := flush_inv hS h hs (by simpa using he)
      refine ⟨fun p hp => (f1.flushed p hp ?_).1, f1.other, rfl⟩
      rw [f2]
      have := (f1.val p hp).1
      omega
  · rw [if_neg hb]
    have hs : w.shadowStart = 0 := h.sb.mpr (by simpa using hb)
    refine ⟨fun p hp => (h.flushed p hp ?_).1, h.other, rfl⟩
    rw [hs]
    have := (h.val p hp).1
    omega

theorem lock_good (hG : GoodHw hw) {m0 : Mem} {done : List (Nat × UInt8)} {w : Writer σ}
    (h : Inv m0 done w) : (w.lock hw).1 = 0 := by
  unfold Writer.lock
  simp only [h.unl, Bool.false_eq_true, if_false]
  by_cases hb : w.shadowBits ≠ 0
  · rw [if_pos hb]
    have := flush_good hG h (fun hc => hb (h.sb.mp hc))
    simp [this]
  · rw [if_neg hb]

end

end Verif.Flash
