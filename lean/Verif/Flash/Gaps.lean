import Verif.Flash.Props

/-!
# Bytes of a word that nobody wrote

After the first word, a byte of a flushed word that was not written is left
erased (C22).
-/

namespace Verif.Flash

open Verif

section
variable {σ : Type} (hw : Hw σ)

/-- The bytes that are not marked as written are all ones. -/
def Clean (w : Writer σ) : Prop :=
  ∀ i < 8, byteAt w.shadowBits i ≠ 0xff → byteAt w.shadow i = 0xff

theorem maybeErase_clean {w : Writer σ} (h : Clean w) (a : Nat) :
    Clean (w.maybeEraseSector hw a).2 := by
  unfold Writer.maybeEraseSector
  split
  · exact h
  · simp only
    split <;> exact h

theorem flushWord_clean {w : Writer σ} (h : Clean w) : Clean (w.flushWord hw).2 := by
  have h1 := maybeErase_clean hw h w.shadowStart
  unfold Writer.flushWord
  simp only
  split
  · exact h1
  · exact fun i hi _ => byteAt_ones i hi

/-- A flush without error leaves a clean writer, whatever was there before. -/
theorem flushWord_cleans {w : Writer σ} (h : (w.flushWord hw).1 = 0) :
    Clean (w.flushWord hw).2 := by
  unfold Writer.flushWord at h ⊢
  simp only at h ⊢
  split at h
  · next hn => exact absurd h hn
  · next hn =>
    rw [if_neg hn]
    exact fun i hi _ => byteAt_ones i hi

theorem putByte_clean {w : Writer σ} (h : Clean w) (a : Nat) (v : UInt8) :
    Clean (w.putByte hw a v).2 := by
  have ho : a % 8 < 8 := Nat.mod_lt _ (by decide)
  have h1 : Clean { w with
      shadowStart := a / 8 * 8
      shadow := (w.shadow &&& ~~~ (0xff#64 <<< (a % 8 * 8))) |||
        (v.toBitVec.setWidth 64 <<< (a % 8 * 8))
      shadowBits := w.shadowBits ||| (0xff#64 <<< (a % 8 * 8)) } := by
    intro i hi hb
    simp only at hb ⊢
    rw [byteAt_bits _ _ _ hi ho] at hb
    rw [byteAt_put _ _ _ _ hi ho]
    by_cases he : i = a % 8
    · rw [if_pos he] at hb; exact absurd rfl hb
    · rw [if_neg he] at hb ⊢; exact h i hi hb
  unfold Writer.putByte
  simp only
  split
  · exact flushWord_clean hw h1
  · exact h1

theorem programByte_clean {w : Writer σ} (h : Clean w) (a : Nat) (v : UInt8) :
    Clean (w.programByte hw a v).2 := by
  unfold Writer.programByte
  split
  · simp only
    split
    · exact flushWord_clean hw h
    · exact putByte_clean hw (flushWord_clean hw h) a v
  · exact putByte_clean hw h a v

theorem lock_clean {w : Writer σ} (h : Clean w) : Clean (w.lock hw).2 := by
  unfold Writer.lock
  split
  · exact h
  · split
    · simp only
      split
      · exact flushWord_clean hw h
      · exact flushWord_clean hw h
    · exact h

theorem writeByte_clean {w : Writer σ} (h : Clean w) (a : Nat) (v : UInt8) :
    Clean (writeByte hw w a v).2 := by
  unfold writeByte
  split
  · exact h
  · split
    · exact h
    · split
      · exact h
      · simp only
        split <;> exact programByte_clean hw h a v

theorem writeBytes_clean (d : Bytes) (w : Writer σ) (a : Nat) (h : Clean w) :
    Clean (writeBytes hw w a d).2 := by
  induction d generalizing w a with
  | nil => exact h
  | cons b d ih =>
    have := writeByte_clean hw h (a % 2 ^ 32) b
    unfold writeBytes
    generalize writeByte hw w (a % 2 ^ 32) b = r at this
    obtain ⟨m, w1⟩ := r
    cases m with
    | some m => exact this
    | none => exact ih w1 (a + 1) this

theorem dispatch_clean {w : Writer σ} (h : Clean w) (toks : List Bytes) (rem : Bytes) :
    Clean (dispatch hw w toks rem).2.1 := by
  have hunlock : Clean w.unlock := h
  have hwrite : ∀ a d, Clean (writeFlash hw w a d).2 := by
    intro a d
    unfold writeFlash
    split
    · exact h
    · have := writeBytes_clean hw (hexPairs d) w (Can.hexToI a) h
      generalize writeBytes hw w (Can.hexToI a) (hexPairs d) = r at this
      obtain ⟨m, w1⟩ := r
      cases m <;> exact this
  unfold dispatch
  simp only
  repeat' split
  all_goals first
    | exact h
    | exact hunlock
    | exact lock_clean hw h
    | exact hwrite _ _

/-- C22: a word that is flushed by a clean writer leaves the bytes that were
not written erased. -/
theorem C22_gaps_erased (hS : SoundHw hw) (w : Writer σ) (h : Clean w)
    (h0 : (w.flushWord hw).1 = 0) (i : Nat) (hi : i < 8) (hb : byteAt w.shadowBits i ≠ 0xff) :
    (w.flushWord hw).2.mem (w.shadowStart + i) = 0xff := by
  have hc := maybeErase_clean hw h w.shadowStart
  have hstart : (w.maybeEraseSector hw w.shadowStart).2.shadowStart = w.shadowStart ∧
      (w.maybeEraseSector hw w.shadowStart).2.shadowBits = w.shadowBits := by
    unfold Writer.maybeEraseSector
    split
    · exact ⟨rfl, rfl⟩
    · simp only
      split <;> exact ⟨rfl, rfl⟩
  unfold Writer.flushWord at h0 ⊢
  generalize w.maybeEraseSector hw w.shadowStart = r at *
  obtain ⟨e, w1⟩ := r
  obtain ⟨h1, h2⟩ := hstart
  simp only at *
  by_cases he : e ≠ 0
  · rw [if_pos he] at h0; exact absurd h0 he
  · rw [if_neg he] at h0 ⊢
    have hf := hc i hi (by rw [h2]; exact hb)
    rw [← h1]
    split
    · next ha =>
      have := (all_iff w1.mem w1.shadowStart w1.shadow).mp ha i hi
      simp only [this, hf]
    · next ha =>
      rw [if_neg ha] at h0
      simp only at h0 ⊢
      rw [hS.programOk _ _ _ _ _ h0 hi, hf]

/-- C22: once one word has been flushed the writer is clean, and stays so for
every later sequence of commands. -/
theorem C22_clean_forever (w : Writer σ) (h0 : (w.flushWord hw).1 = 0)
    (commands : List (List Bytes × Bytes)) :
    Clean (commands.foldl (fun w c => (dispatch hw w c.1 c.2).2.1) (w.flushWord hw).2) := by
  have : ∀ (cs : List (List Bytes × Bytes)) (w : Writer σ), Clean w →
      Clean (cs.foldl (fun w c => (dispatch hw w c.1 c.2).2.1) w) := by
    intro cs
    induction cs with
    | nil => exact fun _ h => h
    | cons c cs ih => exact fun w h => ih _ (dispatch_clean hw h c.1 c.2)
  exact this commands _ (flushWord_cleans hw h0)

end

/-- A second, incomplete word next to a first one. -/
example : (upload ideal 10 [(0x08010000, [1, 2, 3, 4, 5, 6, 7, 8]), (0x08010012, [3, 4]), (0x08010018, [5])]
    blankLink).map (fun x => (x.1, (List.range 8).map fun i => x.2.server.writer.mem (0x08010010 + i))) =
    some (.ok, [0xff, 0xff, 3, 4, 0xff, 0xff, 0xff, 0xff]) := by decide +kernel

end Verif.Flash
