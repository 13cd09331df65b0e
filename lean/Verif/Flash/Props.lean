import Verif.Flash.Upload

/-! # Properties C22, C23 and C53: upload and bootloader -/

namespace Verif.Flash

open Verif Spec

/-! ## A perfect flash -/

/-- Every operation succeeds; a word can be programmed at any time. -/
def ideal : Hw Unit where
  erase _ m bank sector :=
    (0, fun a => if (if bank = 1 then 0x08000000 else 0x08040000) + sector * 2048 ≤ a ∧
      a < (if bank = 1 then 0x08000000 else 0x08040000) + sector * 2048 + 2048 then 0xff else m a, ())
  program _ m address v :=
    (0, fun a => if address ≤ a ∧ a < address + 8 then byteAt v (a - address) else m a, ())
  elapsed _ := 0

theorem ideal_good : GoodHw ideal where
  erase s m bank sector a h := by
    unfold InSector at h
    simp only [ideal]
    exact if_neg h
  program s m address v a h := by
    simp only [ideal]
    exact if_neg h
  eraseOk s m bank sector a _ h := by
    unfold InSector at h
    simp only [ideal]
    exact if_pos h
  programOk s m address v i _ h := by
    simp only [ideal]
    rw [if_pos (by omega)]
    congr 1
    omega
  eraseSucceeds _ _ _ _ := rfl
  programSucceeds _ _ _ _ _ := rfl

/-- A flash that reports an error for every operation (and does nothing). -/
def broken : Hw Unit where
  erase _ m _ _ := (1, m, ())
  program _ m _ _ := (1, m, ())
  elapsed _ := 0

/-- The bootloader after start, with blank flash. -/
def blankLink : Link Unit := ⟨{ writer := { mem := fun _ => 0xff, hw := () } }, []⟩

section
variable {σ : Type} {hw : Hw σ}

/-! ## C22 -/

/-- The bootloader waits for a command, no word is half written and the host has
read all answers (up to the rest of a line end). -/
structure Ready (l : Link σ) : Prop where
  idle : Idle l
  start : l.server.writer.shadowStart = 0
  bits : l.server.writer.shadowBits = 0

/-- The end of `write_flash` before verification. -/
theorem written (hS : SoundHw hw) {secs : List Section} {bs : List Block} {l l1 l2 : Link σ}
    (hr : Ready l) (hok : BlocksOk bs) (hflat : bs.flatMap blockBytes = (image secs).map toNatPair)
    (hend : ∀ p ∈ image secs, p.1.toNat < imageEnd secs) (hfit : imageEnd secs < 2 ^ 31)
    (hu : l1 = { server := { writer := l.server.writer.unlock }, rx := [10] })
    (hs : sendBlocks hw l1 bs = some (.ok, l2)) {l3 : Link σ} {r : Bytes}
    (hf : l2.command hw (wLine (imageEnd secs) (List.replicate (8 - imageEnd secs % 8) 0xff)) =
      some (.bytes r, l3)) :
    Idle l3 ∧
    Inv l.server.writer.mem ((image secs).map toNatPair ++
      natBytes (imageEnd secs) (List.replicate (8 - imageEnd secs % 8) 0xff)) l3.server.writer ∧
    Order ((image secs).map toNatPair ++
      natBytes (imageEnd secs) (List.replicate (8 - imageEnd secs % 8) 0xff)) l3.server.writer ∧
    l3.server.writer.shadowBits ≠ ~~~ 0 := by
  subst hu
  obtain ⟨u1, u2⟩ := unlock_inv hr.start hr.bits
  have hidle1 := idle_done l.server.writer.unlock
  obtain ⟨i1, i2⟩ := sendBlocks_inv hS hok (m0 := l.server.writer.mem) (done := []) hidle1 u1 u2
    (by simp) hs
  have hidle2 := sendBlocks_idle hok hidle1 hs
  rw [List.nil_append, hflat] at i1 i2
  obtain ⟨o, l3', e1, e2, e3, e4⟩ := block_command (hw := hw) l2 hidle2 (imageEnd secs)
    (List.replicate (8 - imageEnd secs % 8) 0xff) (by omega) (by simp; omega) (by simp; omega)
  rw [e1] at hf
  simp only [Option.some.injEq, Prod.mk.injEq] at hf
  obtain ⟨rfl, rfl⟩ := hf
  have hnone := e4.mp ⟨_, rfl⟩
  have hwb : writeBytes hw l2.server.writer (imageEnd secs)
      (List.replicate (8 - imageEnd secs % 8) 0xff) = (none, l3'.server.writer) := by
    rw [e3, ← hnone]
  obtain ⟨j1, j2⟩ := writeBytes_inv hS _ _ _ _ _ i1 i2 (by
    intro p hp
    obtain ⟨q, hq, rfl⟩ := List.mem_map.mp hp
    exact hend q hq) (by simp; omega) hwb
  refine ⟨e2, j1, j2, writeBytes_bits hwb ?_⟩
  intro hnil
  have := congrArg List.length hnil
  simp only [List.length_replicate, List.length_nil] at this
  omega

theorem image_end_lt {secs : List Section} {bs : List Block} {l l2 : Link σ}
    (hS : SoundHw hw) (hr : Ready l) (hok : BlocksOk bs)
    (hflat : bs.flatMap blockBytes = (image secs).map toNatPair)
    (hs : sendBlocks hw { server := { writer := l.server.writer.unlock }, rx := [10] } bs =
      some (.ok, l2)) : imageEnd secs ≤ 0x08080000 := by
  obtain ⟨u1, u2⟩ := unlock_inv hr.start hr.bits
  obtain ⟨i1, _⟩ := sendBlocks_inv hS hok (m0 := l.server.writer.mem) (done := [])
    (idle_done l.server.writer.unlock) u1 u2 (by simp) hs
  rw [List.nil_append, hflat] at i1
  unfold imageEnd
  cases hx : (image secs).getLast? with
  | none => simp
  | some p =>
    have := i1.val (toNatPair p) (List.mem_map_of_mem (List.mem_of_getLast? hx))
    unfold Valid toNatPair at this
    simp only at this ⊢
    omega

/-- The steps of an upload that ends without an exception. -/
theorem upload_steps {secs : List Section} {n : Nat} {bs : List Block} {l l' : Link σ} (hi : Idle l)
    (hb : blocks secs n (-1) = some bs) (h : upload hw n secs l = some (.ok, l')) :
    ∃ l2 l3 l4 r, sendBlocks hw { server := { writer := l.server.writer.unlock }, rx := [10] } bs =
        some (.ok, l2) ∧
      l2.command hw (flushLine bs) = some (.bytes r, l3) ∧
      verifyBlocks hw l3 bs = some (.ok, l4) ∧
      ∃ r', l4.command hw (ascii "lock") = some (.bytes r', l') := by
  unfold upload at h
  rw [hb] at h
  simp only [unlock_command hw l hi] at h
  unfold uploadBlocks at h
  cases hs : sendBlocks hw { server := { writer := l.server.writer.unlock }, rx := [10] } bs with
  | none => rw [hs] at h; simp at h
  | some x =>
    obtain ⟨r, l2⟩ := x
    rw [hs] at h
    cases r with
    | raised => simp at h
    | ok =>
      simp only at h
      cases hf : l2.command hw (flushLine bs) with
      | none => rw [hf] at h; simp at h
      | some x =>
        obtain ⟨o, l3⟩ := x
        rw [hf] at h
        cases o with
        | bytes r =>
          simp only at h
          cases hv : verifyBlocks hw l3 bs with
          | none => rw [hv] at h; simp at h
          | some x =>
            obtain ⟨r2, l4⟩ := x
            rw [hv] at h
            cases r2 with
            | raised => simp at h
            | ok =>
              simp only at h
              cases hl : l4.command hw (ascii "lock") with
              | none => rw [hl] at h; simp at h
              | some x =>
                obtain ⟨o, l5⟩ := x
                rw [hl] at h
                cases o with
                | bytes r' =>
                  simp only [Option.some.injEq, Prod.mk.injEq, true_and] at h
                  subst h
                  exact ⟨l2, l3, l4, r, rfl, hf, hv, r', hl⟩
                | _ => simp at h
        | _ => simp at h

/-- C22: if an upload ends without an error, on hardware that carries out every
operation for which it reports no error (but may report errors at any time),
then the flash holds exactly the bytes of the image, all 2048 byte sectors that
contain no byte of the image and not the byte after it are unchanged, and the
flash is locked. -/
theorem C22_upload_stores (hS : SoundHw hw) (secs : List Section) (hp : Placed 0 secs)
    (hne : secs ≠ []) (h32 : ∀ p ∈ image secs, p.1 < 2 ^ 32) (l l' : Link σ) (hr : Ready l) (n : Nat)
    (h : upload hw n secs l = some (.ok, l')) :
    (∀ p ∈ image secs, l'.server.writer.mem p.1.toNat = p.2) ∧
    (∀ a, (∀ p ∈ image secs, p.1.toNat / 2048 ≠ a / 2048) → imageEnd secs / 2048 ≠ a / 2048 →
      l'.server.writer.mem a = l.server.writer.mem a) ∧
    l'.server.writer.locked = true := by
  obtain ⟨bs, h1, h2, h3, h4, h5, h6, h7⟩ := blocks_image secs hp hne h32
  have hb : blocks secs n (-1) = some bs := by
    cases hn : blocks secs n (-1) with
    | none => unfold upload at h; rw [hn] at h; simp at h
    | some bs' =>
      have e1 := blocks_mono (Nat.le_max_left n (image secs).length) hn
      rw [h1 _ (Nat.le_max_right n (image secs).length)] at e1
      exact e1.symm
  obtain ⟨l2, l3, l4, r, s1, s2, s3, r', s4⟩ := upload_steps hr.idle hb h
  have hlt := image_end_lt hS hr h3 h4 s1
  rw [h5] at s2
  obtain ⟨w1, w2, w3, w4⟩ := written hS hr h3 h4 h6 (by omega) rfl s1 s2
  obtain ⟨rv, lv, v1, v2, v3, v4⟩ := verifyBlocks_iff (hw := hw) h3 w1
  rw [s3] at v1
  simp only [Option.some.injEq, Prod.mk.injEq] at v1
  obtain ⟨rfl, rfl⟩ := v1
  have hlock : (l4.server.writer.lock hw).1 = 0 ∧ l'.server.writer = (l4.server.writer.lock hw).2 := by
    rcases lock_command hw l4 v2 with ⟨e0, e1⟩ | ⟨e0, m, e1⟩
    · rw [s4] at e1
      simp only [Option.some.injEq, Prod.mk.injEq] at e1
      exact ⟨e0, by rw [e1.2]⟩
    · rw [s4] at e1
      simp at e1
  rw [hlock.2]
  rw [v3] at hlock ⊢
  obtain ⟨c1, c2, c3⟩ := lock_inv hS w2 hlock.1
  refine ⟨?_, ?_, c3⟩
  · intro p hp'
    exact c1 (toNatPair p) (List.mem_append_left _ (List.mem_map_of_mem hp'))
  · intro a ha1 ha2
    apply c2
    intro p hp'
    rcases List.mem_append.mp hp' with hp' | hp'
    · obtain ⟨q, hq, rfl⟩ := List.mem_map.mp hp'
      exact ha1 q hq
    · have := natBytes_mem hp'
      simp only [List.length_replicate] at this
      omega

/-- C22: whatever the hardware does, an upload whose verification succeeds
left the image bytes in the memory that the bootloader reads. -/
theorem C22_verified (bs : List Block) (hok : BlocksOk bs) (l l' : Link σ) (hi : Idle l)
    (h : verifyBlocks hw l bs = some (.ok, l')) :
    ∀ b ∈ bs, ∀ p ∈ bytesAt b.address b.data, l.server.writer.mem p.1.toNat = p.2 := by
  obtain ⟨rv, lv, v1, v2, v3, v4⟩ := verifyBlocks_iff (hw := hw) hok hi
  rw [h] at v1
  simp only [Option.some.injEq, Prod.mk.injEq] at v1
  obtain ⟨rfl, rfl⟩ := v1
  intro b hb p hp
  refine v4.mp rfl (toNatPair p) (List.mem_flatMap.mpr ⟨b, hb, ?_⟩)
  unfold blockBytes
  rw [natBytes_eq _ _ (hok.shape b hb).1]
  exact List.mem_map_of_mem hp

/-- C22: on working hardware the upload of every image in writable flash
succeeds, provided that the bytes which complete the last word (a whole further
word if the image ends with a word) are writable as well, and the image has no
gap in its last word. -/
theorem C22_upload_succeeds (hG : GoodHw hw) (secs : List Section) (hp : Placed 0 secs)
    (hne : secs ≠ []) (hval : ∀ p ∈ image secs, Valid p.1.toNat)
    (hflush : ∀ x, imageEnd secs ≤ x → x < imageEnd secs / 8 * 8 + 8 → Valid x)
    (hword : ∀ x, imageEnd secs / 8 * 8 ≤ x → x < imageEnd secs → ∃ p ∈ image secs, p.1.toNat = x)
    (l : Link σ) (hr : Ready l) (n : Nat) (hn : (image secs).length ≤ n) :
    ∃ l', upload hw n secs l = some (.ok, l') := by
  have hS := hG.toSoundHw
  obtain ⟨srt, nonneg⟩ := image_sorted hp
  have h32 : ∀ p ∈ image secs, p.1 < 2 ^ 32 := by
    intro p hp
    have := hval p hp
    unfold Valid at this
    omega
  obtain ⟨bs, h1, h2, h3, h4, h5, h6, h7⟩ := blocks_image secs hp hne h32
  obtain ⟨u1, u2⟩ := unlock_inv hr.start hr.bits
  obtain ⟨l2, hs⟩ := sendBlocks_good hG h3 (m0 := l.server.writer.mem) (done := [])
    (idle_done l.server.writer.unlock) u1 u2 (by simp) (by
      intro q hq
      rw [h4] at hq
      obtain ⟨p, hp, rfl⟩ := List.mem_map.mp hq
      exact hval p hp)
  have hlt := image_end_lt hS hr h3 h4 hs
  have hidle2 := sendBlocks_idle h3 (idle_done l.server.writer.unlock) hs
  obtain ⟨i1, i2⟩ := sendBlocks_inv hS h3 (m0 := l.server.writer.mem) (done := [])
    (idle_done l.server.writer.unlock) u1 u2 (by simp) hs
  rw [List.nil_append, h4] at i1 i2
  obtain ⟨w', hw'⟩ := writeBytes_good hG (List.replicate (8 - imageEnd secs % 8) 0xff) _ _
    (imageEnd secs) i1 i2 (by
      intro p hp
      obtain ⟨q, hq, rfl⟩ := List.mem_map.mp hp
      exact h6 q hq) (by
      intro p hp
      have := natBytes_mem hp
      simp only [List.length_replicate] at this
      exact hflush p.1 this.1 (by omega))
  obtain ⟨o, l3, e1, e2, e3, e4⟩ := block_command (hw := hw) l2 hidle2 (imageEnd secs)
    (List.replicate (8 - imageEnd secs % 8) 0xff) (by omega) (by simp; omega) (by simp; omega)
  obtain ⟨r, rfl⟩ := e4.mpr (by rw [hw'])
  obtain ⟨w1, w2, w3, w4⟩ := written hS hr h3 h4 h6 (by omega) rfl hs e1
  -- the last word is complete, therefore nothing is pending
  have hstart : l3.server.writer.shadowStart = 0 := by
    by_contra hc
    apply w4
    have h8 := (w2.st hc).2
    -- the pending word is the last one
    have hlast : l3.server.writer.shadowStart = imageEnd secs / 8 * 8 := by
      obtain ⟨p, hp, hpx⟩ := w2.some_pending hc
      obtain ⟨q, hq, hqx⟩ := natBytes_at (imageEnd secs) (List.replicate (8 - imageEnd secs % 8) 0xff)
        (imageEnd secs) (by omega) (by simp only [List.length_replicate]; omega)
      have := w3.some hc q (List.mem_append_right _ hq)
      have hle : p.1 / 8 * 8 ≤ imageEnd secs / 8 * 8 := by
        rcases List.mem_append.mp hp with hp | hp
        · obtain ⟨q, hq, rfl⟩ := List.mem_map.mp hp
          have := h6 q hq
          simp only [toNatPair]
          omega
        · have := natBytes_mem hp
          simp only [List.length_replicate] at this
          omega
      omega
    rw [full_iff]
    intro i hi
    have hx : ∃ p ∈ (image secs).map toNatPair ++ natBytes (imageEnd secs)
        (List.replicate (8 - imageEnd secs % 8) 0xff), p.1 = imageEnd secs / 8 * 8 + i := by
      by_cases hie : imageEnd secs / 8 * 8 + i < imageEnd secs
      · obtain ⟨p, hp, hpx⟩ := hword _ (by omega) hie
        exact ⟨toNatPair p, List.mem_append_left _ (List.mem_map_of_mem hp), hpx⟩
      · obtain ⟨q, hq, hqx⟩ := natBytes_at (imageEnd secs) (List.replicate (8 - imageEnd secs % 8) 0xff)
          (imageEnd secs / 8 * 8 + i) (by omega) (by simp only [List.length_replicate]; omega)
        exact ⟨q, List.mem_append_right _ hq, hqx⟩
    obtain ⟨p, hp, hpx⟩ := hx
    have := (w2.cov p hp (by omega)).1
    rw [hpx] at this
    rw [← this]
    congr 1
    omega
  obtain ⟨rv, l4, v1, v2, v3, v4⟩ := verifyBlocks_iff (hw := hw) h3 w1
  have hrv : rv = .ok := by
    rw [v4, h4]
    intro p hp
    refine (w2.flushed p (List.mem_append_left _ hp) ?_).1
    rw [hstart]
    have := w2.val p (List.mem_append_left _ hp)
    unfold Valid at this
    omega
  subst hrv
  have hlk : (l4.server.writer.lock hw).1 = 0 := by rw [v3]; exact lock_good hG w2
  rcases lock_command hw l4 v2 with ⟨_, e5⟩ | ⟨e0, _⟩
  · refine ⟨⟨{ writer := (l4.server.writer.lock hw).2 }, [10]⟩, ?_⟩
    unfold upload
    rw [h1 n hn]
    simp only [unlock_command hw l hr.idle]
    unfold uploadBlocks
    rw [hs]
    simp only
    rw [h5, e1]
    simp only
    rw [v1]
    simp only
    rw [e5]
  · exact absurd hlk e0

/-- C22: an upload can only succeed if the padding after the image is writable,
whatever the hardware does. -/
theorem C22_padding_needed (secs : List Section) (hp : Placed 0 secs)
    (hne : secs ≠ []) (hfit : imageEnd secs + 8 ≤ 2 ^ 32) (l l' : Link σ) (hi : Idle l) (n : Nat)
    (h : upload hw n secs l = some (.ok, l')) :
    ∀ x, imageEnd secs ≤ x → x < imageEnd secs / 8 * 8 + 8 → Valid x := by
  obtain ⟨srt, nonneg⟩ := image_sorted hp
  have h32 : ∀ p ∈ image secs, p.1 < 2 ^ 32 := by
    intro p hp'
    obtain ⟨q, hq⟩ : ∃ q, (image secs).getLast? = some q := by
      cases hx : (image secs).getLast? with
      | none => rw [List.getLast?_eq_none_iff] at hx; rw [hx] at hp'; simp at hp'
      | some q => exact ⟨q, rfl⟩
    unfold imageEnd at hfit
    rw [hq] at hfit
    simp only at hfit
    obtain ⟨t, ht⟩ := List.getLast?_eq_some_iff.mp hq
    rw [ht] at hp' srt
    rw [List.pairwise_append] at srt
    rcases List.mem_append.mp hp' with hp' | hp'
    · have := srt.2.2 p hp' q (by simp); omega
    · simp only [List.mem_singleton] at hp'; subst hp'; omega
  obtain ⟨bs, h1, h2, h3, h4, h5, h6, h7⟩ := blocks_image secs hp hne h32
  have hb : blocks secs n (-1) = some bs := by
    cases hn : blocks secs n (-1) with
    | none => unfold upload at h; rw [hn] at h; simp at h
    | some bs' =>
      have e1 := blocks_mono (Nat.le_max_left n (image secs).length) hn
      rw [h1 _ (Nat.le_max_right n (image secs).length)] at e1
      exact e1.symm
  obtain ⟨l2, l3, l4, r, s1, s2, s3, r', s4⟩ := upload_steps hi hb h
  have hidle2 := sendBlocks_idle h3 (idle_done l.server.writer.unlock) s1
  rw [h5] at s2
  obtain ⟨o, l3', e1, e2, e3, e4⟩ := block_command (hw := hw) l2 hidle2 (imageEnd secs)
    (List.replicate (8 - imageEnd secs % 8) 0xff) (by omega) (by simp; omega) (by simp; omega)
  rw [e1] at s2
  simp only [Option.some.injEq, Prod.mk.injEq] at s2
  obtain ⟨rfl, rfl⟩ := s2
  have hnone := e4.mp ⟨_, rfl⟩
  intro x hx1 hx2
  obtain ⟨p, hp, rfl⟩ := natBytes_at (imageEnd secs) (List.replicate (8 - imageEnd secs % 8) 0xff) x
    hx1 (by simp only [List.length_replicate]; omega)
  exact writeBytes_valid (hw := hw) (w := l2.server.writer) (w' := l3'.server.writer)
    (by simp only [List.length_replicate]; omega) (by rw [e3, ← hnone]) p hp

end

/-- C22: an image that fills the flash below the bootloader is rejected by the
padding: not every image in writable flash can be uploaded. -/
theorem C22_full_region_refuted :
    ∃ secs, Placed 0 secs ∧ secs ≠ [] ∧ (∀ p ∈ image secs, Valid p.1.toNat) ∧
      ∀ l l' : Link Unit, Idle l → ∀ n, upload ideal n secs l ≠ some (.ok, l') := by
  have hv : ∀ p ∈ image [(0x0800bff8, [1, 2, 3, 4, 5, 6, 7, 8])], Valid p.1.toNat := by decide
  refine ⟨[(0x0800bff8, [1, 2, 3, 4, 5, 6, 7, 8])], by simp [Placed], by simp, hv, ?_⟩
  intro l l' hi n h
  have := C22_padding_needed _ (by simp [Placed]) (by simp) (by decide) l l' hi n h 0x0800c000
    (by decide) (by decide)
  exact absurd this (by decide)

/-- C22: an image with a gap at the start of its last word is written, but the
verification reads the word before it is programmed. -/
theorem C22_gap_in_last_word_refuted :
    (upload ideal 10 [(0x08010002, [1, 2])] blankLink).map (·.1) = some .raised := by decide +kernel

/-- C22: the sector after an image that ends with a sector is erased. -/
theorem C22_next_sector_refuted :
    (upload ideal 10 [(0x080107f8, [1, 2, 3, 4, 5, 6, 7, 8])]
      ⟨{ writer := { mem := fun _ => 0x5a, hw := () } }, []⟩).map
      (fun x => (x.1, x.2.server.writer.mem 0x080107f8, x.2.server.writer.mem 0x08010800,
        x.2.server.writer.mem 0x08010fff)) = some (.ok, 1, 0xff, 0xff) := by decide +kernel

/-- C22: the first incomplete word after a start of the bootloader is filled
with zeros (later ones with ones): bytes outside of the image that are not part
of the padding differ. -/
theorem C22_first_word_fill :
    (upload ideal 10 [(0x08010002, [1, 2]), (0x08010012, [3, 4]), (0x08010018, [5])] blankLink).map
      (fun x => (x.1, (List.range 8).map fun i => x.2.server.writer.mem (0x08010000 + i))) =
      some (.ok, [0, 0, 1, 2, 0, 0, 0, 0]) := by decide +kernel

example : SoundHw broken := by
  refine ⟨⟨fun _ _ _ _ _ _ => rfl, fun _ _ _ _ _ _ => rfl⟩, ?_, ?_⟩
  · intro s m bank sector a h; simp [broken] at h
  · intro s m address v i h; simp [broken] at h
example : Ready blankLink := ⟨⟨rfl, rfl, rfl, Or.inl rfl⟩, rfl, rfl⟩
example : (upload ideal 10 [(0x08010000, [1, 2]), (0x08020000, [3, 4, 5, 6, 7, 8, 9, 10])] blankLink).map
    (fun x => (x.1, x.2.server.writer.mem 0x08010001, x.2.server.writer.mem 0x08020007)) =
    some (.ok, 2, 10) := by decide +kernel
example : (upload broken 10 [(0x08010000, [1, 2])] blankLink).map (·.1) = some .raised := by
  decide +kernel
example : imageEnd [(0x08010000, [1, 2]), (0x08020000, [3, 4, 5])] = 0x08020003 := by decide

/-! ## C23 -/

section
variable {σ : Type} (hw : Hw σ)

theorem fresh_safe (m : Mem) (s : σ) : Safe hw m ({ mem := m, hw := s } : Writer σ) :=
  ⟨fun h => absurd rfl h, by simp, fun _ => rfl, by simp, fun _ _ _ => rfl⟩

/-- C23: for any sequence of frames with any contents, from the start of the
bootloader and for any hardware: nothing is erased or programmed while the
flash is locked, and everything that is erased or programmed lies in the flash
and outside of the bootloader region. -/
theorem C23_frames_safe (m : Mem) (s : σ) (frames : List Bytes) :
    ∀ x ∈ (frames.foldl (Server.frame hw) { writer := { mem := m, hw := s } }).writer.log,
      x.1 = false ∧ ∀ a, Touches x.2 a → Valid a := by
  have : ∀ (fs : List Bytes) (t : Server σ), Safe hw m t.writer →
      Safe hw m (fs.foldl (Server.frame hw) t).writer := by
    intro fs
    induction fs with
    | nil => intro t h; exact h
    | cons f fs ih => intro t h; exact ih _ (frame_safe hw h f)
  exact (this frames { writer := { mem := m, hw := s } } (fresh_safe hw m s)).log

/-- C23: bytes outside of the writable flash keep their value, if the hardware
changes only what it is told to change. -/
theorem C23_protected (hL : LocalHw hw) (m : Mem) (s : σ) (frames : List Bytes) (a : Nat)
    (ha : ¬ Valid a) :
    (frames.foldl (Server.frame hw) { writer := { mem := m, hw := s } }).writer.mem a = m a := by
  have : ∀ (fs : List Bytes) (t : Server σ), Safe hw m t.writer →
      Safe hw m (fs.foldl (Server.frame hw) t).writer := by
    intro fs
    induction fs with
    | nil => intro t h; exact h
    | cons f fs ih => intro t h; exact ih _ (frame_safe hw h f)
  have hs := this frames { writer := { mem := m, hw := s } } (fresh_safe hw m s)
  exact hs.mem hL a (fun x hx ht => ha ((hs.log x hx).2 a ht))

/-- C23: the same for any sequence of commands, independent of how they are
received and divided into words. -/
theorem C23_commands_safe (m : Mem) (s : σ) (commands : List (List Bytes × Bytes)) :
    let w := commands.foldl (fun w c => (dispatch hw w c.1 c.2).2.1) { mem := m, hw := s }
    (∀ x ∈ w.log, x.1 = false ∧ ∀ a, Touches x.2 a → Valid a) ∧
    (LocalHw hw → ∀ a, ¬ Valid a → w.mem a = m a) := by
  have : ∀ (cs : List (List Bytes × Bytes)) (w : Writer σ), Safe hw m w →
      Safe hw m (cs.foldl (fun w c => (dispatch hw w c.1 c.2).2.1) w) := by
    intro cs
    induction cs with
    | nil => intro w h; exact h
    | cons c cs ih => intro w h; exact ih _ (dispatch_safe hw h c.1 c.2)
  have hs := this commands _ (fresh_safe hw m s)
  exact ⟨hs.log, fun hL a ha => hs.mem hL a (fun x hx ht => ha ((hs.log x hx).2 a ht))⟩

/-- C23: while the flash is locked, only the command `unlock` changes anything:
every other command leaves lock, memory and pending word as they are. -/
theorem C23_locked (w : Writer σ) (h : w.locked = true) (tokens : List Bytes) (remaining : Bytes)
    (hn : tokens[0]? ≠ some (ascii "unlock")) :
    (dispatch hw w tokens remaining).2.1 = w := locked_unchanged hw h tokens remaining hn

/-- C23: frames never overrun the command buffer. -/
theorem C23_command_buffer (s : Server σ) (frames : List Bytes) (h : s.command.length ≤ 256) :
    (frames.foldl (Server.frame hw) s).command.length ≤ 256 := by
  induction frames generalizing s with
  | nil => exact h
  | cons f fs ih =>
    rw [List.foldl_cons]
    apply ih
    unfold Server.frame
    split
    · exact h
    · have key : ∀ t : Server σ, t.command.length ≤ 256 →
          (if t.command.any Stream.isNewline then t.runCommand hw else t).command.length ≤ 256 := by
        intro t ht
        split
        · simp only [Server.runCommand, List.length_drop]; omega
        · exact ht
      apply key
      split
      · simp
      · next hc => simp only [List.length_append]; omega

end

/-- C23: a write command without data takes the first word of the next line as
its data, if that line was received in the same frame. -/
theorem C23_next_line_as_data :
    ([ascii "unlock\n", ascii "w 8010000\nabcd 8010000 01\n"].foldl (Server.frame ideal)
      { writer := { mem := fun _ => 0xff, hw := () } }).writer.shadow = 0xcdab := by
  decide +kernel

example : LocalHw ideal := ideal_good.toLocalHw
example : ([ascii "unlock\n", ascii "w 8010000 0102030405060708\n", ascii "w 800c000 00\n",
    ascii "w 7fffffe 0000000000000000\n", ascii "lock\n"].foldl (Server.frame ideal)
      { writer := { mem := fun _ => 0xff, hw := () } }).writer.log =
    [(false, .erase 1 32), (false, .program 0x08010000)] := by decide +kernel

/-! ## C53 -/

/-- The numbers that the bootloader prints: size of the local buffer and the
text that is written into it (with the terminating 0),
fw/can_bootloader.cc:653-667, 691-693, 718-720. -/
inductive Print
  | readAddress (address : Nat)
  | readByte (value : UInt8)
  | elapsed (us : Nat)
  | programError (error : Nat)

def Print.buffer : Print → Nat
  | .readAddress _ => 10
  | .readByte _ => 10
  | .elapsed _ => 16
  | .programError _ => 5

/-- fw/can_bootloader.cc:40-55 `uint8_hex`, `uint32_hex`: hex digits and a 0. -/
def Print.text : Print → Bytes
  | .readAddress a => Can.uint32Hex a ++ [0]
  | .readByte v => Can.hexByte true v ++ [0]
  | .elapsed t => Can.uint32Hex t ++ [0]
  | .programError e => Can.uint32Hex e ++ [0]

/-- C53: all numbers except the error code of a failed write fit. -/
theorem C53_buffers_partial (p : Print) (h : ∀ e, p ≠ .programError e) :
    p.text.length ≤ p.buffer := by
  cases p with
  | programError e => exact absurd rfl (h e)
  | _ => simp [Print.text, Print.buffer, Can.uint32Hex, Can.hexByte]

/-- C53: the error code of a failed write never fits: 9 bytes are written to a
buffer of 5. -/
theorem C53_error_buffer_refuted (e : Nat) :
    (Print.programError e).buffer < (Print.programError e).text.length := by
  simp [Print.text, Print.buffer, Can.uint32Hex, Can.hexByte]

example : ∀ e, Print.readAddress 0x08010000 ≠ .programError e := by intro e h; cases h

end Verif.Flash
