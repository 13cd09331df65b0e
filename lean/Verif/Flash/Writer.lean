import Verif.Flash.Word

/-! # The flash writer: invariants for C22 and C23 -/

namespace Verif.Flash

open Verif

namespace Spec

/-- Addresses that the bootloader may change: flash except its own region. -/
def Valid (a : Nat) : Prop := 0x08000000 ≤ a ∧ a < 0x08080000 ∧ ¬ (0x0800c000 ≤ a ∧ a < 0x08010000)

instance (a : Nat) : Decidable (Valid a) := by unfold Valid; infer_instance

/-- RM0440 (STM32G4), dual bank mode: sectors of 2048 bytes; bank 2 starts at
0x08040000. -/
def InSector (bank sector a : Nat) : Prop :=
  let base := (if bank = 1 then 0x08000000 else 0x08040000) + sector * 2048
  base ≤ a ∧ a < base + 2048

/-- The bytes that an action can change. -/
def Touches : Action → Nat → Prop
  | .erase bank sector, a => InSector bank sector a
  | .program address, a => address ≤ a ∧ a < address + 8

end Spec

open Spec

/-- The hardware changes only what it is told to change (also when it reports
an error). -/
structure LocalHw {σ : Type} (hw : Hw σ) : Prop where
  erase : ∀ s m bank sector a, ¬ InSector bank sector a → (hw.erase s m bank sector).2.1 a = m a
  program : ∀ s m address v a, ¬ (address ≤ a ∧ a < address + 8) →
    (hw.program s m address v).2.1 a = m a

/-- If no error is reported, the operation was carried out. -/
structure SoundHw {σ : Type} (hw : Hw σ) : Prop extends LocalHw hw where
  eraseOk : ∀ s m bank sector a, (hw.erase s m bank sector).1 = 0 → InSector bank sector a →
    (hw.erase s m bank sector).2.1 a = 0xff
  programOk : ∀ s m address v i, (hw.program s m address v).1 = 0 → i < 8 →
    (hw.program s m address v).2.1 (address + i) = byteAt v i

/-- Erasing and programming of erased words succeed. -/
structure GoodHw {σ : Type} (hw : Hw σ) : Prop extends SoundHw hw where
  eraseSucceeds : ∀ s m bank sector, (hw.erase s m bank sector).1 = 0
  programSucceeds : ∀ s m address v, (∀ i < 8, m (address + i) = 0xff) →
    (hw.program s m address v).1 = 0

theorem inSector_iff (a b : Nat) (h : 0x08000000 ≤ a ∧ a < 0x08080000) :
    InSector (bankOf a) (sectorOf a) b ↔ a / 2048 = b / 2048 := by
  unfold InSector sectorOf bankOf
  by_cases h1 : a < 0x08040000
  · simp only [if_pos h1, if_true]; omega
  · simp only [if_neg h1, show ¬ (2 = 1) by omega, if_false]; omega

theorem sectorIndex_eq (a : Nat) (h : 0x08000000 ≤ a ∧ a < 0x08080000) :
    sectorIndex a = (a - 0x08000000) / 2048 := by
  unfold sectorIndex sectorOf bankOf
  by_cases h1 : a < 0x08040000
  · simp only [if_pos h1, if_true]; omega
  · simp only [if_neg h1, show ¬ (2 = 1) by omega, if_false]; omega

theorem sectorIndex_iff (a b : Nat) (ha : 0x08000000 ≤ a ∧ a < 0x08080000)
    (hb : 0x08000000 ≤ b ∧ b < 0x08080000) :
    sectorIndex a = sectorIndex b ↔ a / 2048 = b / 2048 := by
  rw [sectorIndex_eq a ha, sectorIndex_eq b hb]; omega

/-! ## C23: safety -/

section
variable {σ : Type} (hw : Hw σ)

structure Safe (m0 : Mem) (w : Writer σ) : Prop where
  start : w.shadowStart ≠ 0 → Valid w.shadowStart ∧ w.shadowStart % 8 = 0
  bits : w.shadowStart ≠ 0 ↔ w.shadowBits ≠ 0
  locked : w.locked = true → w.shadowStart = 0
  log : ∀ x ∈ w.log, x.1 = false ∧ ∀ a, Touches x.2 a → Valid a
  mem : LocalHw hw → ∀ a, (∀ x ∈ w.log, ¬ Touches x.2 a) → w.mem a = m0 a

theorem valid_sector {a b : Nat} (h : Valid a) (hs : a / 2048 = b / 2048) : Valid b := by
  unfold Valid at *; omega

theorem maybeErase_safe {m0 : Mem} {w : Writer σ} (h : Safe hw m0 w) (hl : w.locked = false)
    (hs : w.shadowStart ≠ 0) :
    Safe hw m0 (w.maybeEraseSector hw w.shadowStart).2 ∧
    (w.maybeEraseSector hw w.shadowStart).2.locked = false ∧
    (w.maybeEraseSector hw w.shadowStart).2.shadowStart = w.shadowStart ∧
    (w.maybeEraseSector hw w.shadowStart).2.shadow = w.shadow ∧
    (w.maybeEraseSector hw w.shadowStart).2.shadowBits = w.shadowBits := by
  have hv := (h.start hs).1
  have hflash : 0x08000000 ≤ w.shadowStart ∧ w.shadowStart < 0x08080000 := ⟨hv.1, hv.2.1⟩
  have hE : Safe hw m0 (w.eraseSector hw (bankOf w.shadowStart) (sectorOf w.shadowStart)).2 := by
    refine ⟨h.start, h.bits, h.locked, ?_, ?_⟩
    · intro x hx
      simp only [Writer.eraseSector, List.mem_append, List.mem_singleton] at hx
      rcases hx with hx | rfl
      · exact h.log x hx
      · exact ⟨hl, fun a ha => valid_sector hv ((inSector_iff _ a hflash).mp ha)⟩
    · intro hloc a ha
      simp only [Writer.eraseSector, List.mem_append, List.mem_singleton] at ha
      have h1 := ha _ (Or.inr rfl)
      simp only [Writer.eraseSector]
      rw [hloc.erase _ _ _ _ _ h1]
      exact h.mem hloc a (fun x hx => ha x (Or.inl hx))
  unfold Writer.maybeEraseSector
  split
  · exact ⟨h, hl, rfl, rfl, rfl⟩
  · simp only
    split
    · exact ⟨hE, hl, rfl, rfl, rfl⟩
    · exact ⟨⟨hE.start, hE.bits, hE.locked, hE.log, hE.mem⟩, hl, rfl, rfl, rfl⟩

theorem flushWord_safe {m0 : Mem} {w : Writer σ} (h : Safe hw m0 w) (hl : w.locked = false)
    (hs : w.shadowStart ≠ 0) :
    Safe hw m0 (w.flushWord hw).2 ∧ (w.flushWord hw).2.locked = false ∧
    ((w.flushWord hw).1 = 0 → (w.flushWord hw).2.shadowStart = 0 ∧ (w.flushWord hw).2.shadowBits = 0) := by
  obtain ⟨h1, h2, h3, h4, h5⟩ := maybeErase_safe hw h hl hs
  unfold Writer.flushWord
  generalize w.maybeEraseSector hw w.shadowStart = r at *
  obtain ⟨e, w1⟩ := r
  simp only at *
  by_cases he : e ≠ 0
  · rw [if_pos he]; exact ⟨h1, h2, fun h0 => absurd h0 he⟩
  · rw [if_neg he]
    have hs1 : w1.shadowStart ≠ 0 := by rw [h3]; exact hs
    obtain ⟨hv, h8⟩ := h1.start hs1
    split
    · refine ⟨⟨?_, ?_, ?_, h1.log, h1.mem⟩, h2, fun _ => ⟨rfl, rfl⟩⟩
      · intro h0; exact absurd rfl h0
      · simp
      · intro _; rfl
    · refine ⟨⟨?_, ?_, ?_, ?_, ?_⟩, h2, fun _ => ⟨rfl, rfl⟩⟩
      · intro h0; exact absurd rfl h0
      · simp
      · intro _; rfl
      · intro x hx
        simp only [List.mem_append, List.mem_singleton] at hx
        rcases hx with hx | rfl
        · exact h1.log x hx
        · refine ⟨h2, fun a ha => ?_⟩
          simp only [Touches] at ha
          exact valid_sector hv (by omega)
      · intro hloc a ha
        simp only [List.mem_append, List.mem_singleton] at ha ⊢
        have h1' := ha _ (Or.inr rfl)
        rw [hloc.program _ _ _ _ _ h1']
        exact h1.mem hloc a (fun x hx => ha x (Or.inl hx))

theorem bits_ne_zero (w : BitVec 64) (o : Nat) (ho : o < 8) : w ||| (0xff#64 <<< (o * 8)) ≠ 0 := by
  intro h
  have := (empty_iff _).mp h o ho
  rw [byteAt_bits _ _ _ ho ho, if_pos rfl] at this
  exact absurd this (by decide)

theorem putByte_safe {m0 : Mem} {w : Writer σ} (h : Safe hw m0 w) (hl : w.locked = false)
    (a : Nat) (v : UInt8) (ha : Valid a) :
    Safe hw m0 (w.putByte hw a v).2 ∧ (w.putByte hw a v).2.locked = false := by
  have hne : a / 8 * 8 ≠ 0 := by unfold Valid at ha; omega
  have hsafe : ∀ s b, b ≠ 0 → Safe hw m0 { w with shadowStart := a / 8 * 8, shadow := s, shadowBits := b } := by
    intro s b hb
    refine ⟨fun _ => ⟨valid_sector ha (by simp only; omega), by simp⟩, ?_, ?_, h.log, h.mem⟩
    · simp only [ne_eq, hne, not_false_eq_true, hb]
    · intro h0; simp only at h0; rw [hl] at h0; cases h0
  unfold Writer.putByte
  simp only
  split
  · have := fun s => flushWord_safe hw (hsafe s _ (bits_ne_zero w.shadowBits (a % 8) (Nat.mod_lt _ (by omega)))) hl hne
    exact ⟨(this _).1, (this _).2.1⟩
  · exact ⟨hsafe _ _ (bits_ne_zero w.shadowBits (a % 8) (Nat.mod_lt _ (by omega))), hl⟩

theorem programByte_safe {m0 : Mem} {w : Writer σ} (h : Safe hw m0 w) (hl : w.locked = false)
    (a : Nat) (v : UInt8) (ha : Valid a) :
    Safe hw m0 (w.programByte hw a v).2 ∧ (w.programByte hw a v).2.locked = false := by
  unfold Writer.programByte
  split
  · next hc =>
    obtain ⟨h1, h2, h3⟩ := flushWord_safe hw h hl hc.2
    simp only
    split
    · exact ⟨h1, h2⟩
    · exact putByte_safe hw h1 h2 a v ha
  · exact putByte_safe hw h hl a v ha

theorem lock_safe {m0 : Mem} {w : Writer σ} (h : Safe hw m0 w) : Safe hw m0 (w.lock hw).2 := by
  unfold Writer.lock
  split
  · exact h
  · next hl =>
    have hl : w.locked = false := by simpa using hl
    split
    · next hb =>
      obtain ⟨h1, h2, h3⟩ := flushWord_safe hw h hl (h.bits.mpr hb)
      simp only
      split
      · exact h1
      · next he =>
        exact ⟨h1.start, h1.bits, fun _ => (h3 (by simpa using he)).1, h1.log, h1.mem⟩
    · next hb =>
      have : w.shadowStart = 0 := by
        by_contra hc
        exact hb (h.bits.mp hc)
      exact ⟨h.start, h.bits, fun _ => this, h.log, h.mem⟩

theorem writeByte_safe {m0 : Mem} {w : Writer σ} (h : Safe hw m0 w) (a : Nat) (v : UInt8) :
    Safe hw m0 (writeByte hw w a v).2 := by
  unfold writeByte
  split
  · exact h
  · next hl =>
    split
    · exact h
    · next h1 =>
      split
      · exact h
      · next h2 =>
        have := (programByte_safe hw h (by simpa using hl) a v (by unfold Valid; omega)).1
        simp only
        split
        · exact this
        · exact this

theorem writeBytes_safe {m0 : Mem} (d : Bytes) (w : Writer σ) (a : Nat) (h : Safe hw m0 w) :
    Safe hw m0 (writeBytes hw w a d).2 := by
  induction d generalizing w a with
  | nil => exact h
  | cons b d ih =>
    have := writeByte_safe hw h (a % 2 ^ 32) b
    unfold writeBytes
    generalize writeByte hw w (a % 2 ^ 32) b = r at this
    obtain ⟨m, w1⟩ := r
    cases m with
    | some m => exact this
    | none => exact ih w1 (a + 1) this

theorem dispatch_safe {m0 : Mem} {w : Writer σ} (h : Safe hw m0 w) (toks : List Bytes) (rem : Bytes) :
    Safe hw m0 (dispatch hw w toks rem).2.1 := by
  have hunlock : Safe hw m0 w.unlock :=
    ⟨h.start, h.bits, fun h0 => by simp [Writer.unlock] at h0, h.log, h.mem⟩
  have hwrite : ∀ a d, Safe hw m0 (writeFlash hw w a d).2 := by
    intro a d
    unfold writeFlash
    split
    · exact h
    · have := writeBytes_safe hw (hexPairs d) w (Can.hexToI a) h
      generalize writeBytes hw w (Can.hexToI a) (hexPairs d) = r at this
      obtain ⟨m, w1⟩ := r
      cases m <;> exact this
  unfold dispatch
  simp only
  split
  · exact h
  · split
    · exact h
    · split
      · exact hunlock
      · split
        · split
          · exact lock_safe hw h
          · exact lock_safe hw h
        · split
          · split
            · exact h
            · exact hwrite _ _
          · split
            · split
              · exact h
              · exact h
            · split
              · split
                · exact lock_safe hw h
                · exact lock_safe hw h
              · split
                · exact h
                · exact h

theorem runCommand_safe {m0 : Mem} {s : Server σ} (h : Safe hw m0 s.writer) :
    Safe hw m0 (s.runCommand hw).writer := dispatch_safe hw h _ _

theorem frame_safe {m0 : Mem} {s : Server σ} (h : Safe hw m0 s.writer) (d : Bytes) :
    Safe hw m0 (s.frame hw d).writer := by
  unfold Server.frame
  split
  · exact h
  · have key : ∀ t : Server σ, Safe hw m0 t.writer →
        Safe hw m0 (if t.command.any Stream.isNewline then t.runCommand hw else t).writer := by
      intro t ht
      split
      · exact runCommand_safe hw ht
      · exact ht
    apply key
    split <;> exact h

theorem locked_unchanged {w : Writer σ} (h : w.locked = true)
    (toks : List Bytes) (rem : Bytes) (hn : toks[0]? ≠ some (ascii "unlock")) :
    (dispatch hw w toks rem).2.1 = w := by
  have hlock : w.lock hw = (0, w) := by unfold Writer.lock; rw [if_pos h]
  have hwrite : ∀ a d, (writeFlash hw w a d).2 = w := by
    intro a d
    unfold writeFlash
    split
    · rfl
    · cases hexPairs d with
      | nil => rfl
      | cons b bs => simp [writeBytes, writeByte, h]
  have hnu : (toks[0]?).getD [] ≠ ascii "unlock" := by
    intro he
    cases ht : toks[0]? with
    | none => rw [ht] at he; exact absurd he (by decide)
    | some t => rw [ht] at he hn; exact hn (by simpa using he)
  unfold dispatch
  simp only [hlock, hwrite, if_neg hnu]
  repeat' split
  all_goals rfl

end

end Verif.Flash
