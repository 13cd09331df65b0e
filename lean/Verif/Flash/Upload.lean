import Verif.Flash.Link

/-! # The upload as a whole: C22 -/

namespace Verif.Flash

open Verif Spec

namespace Spec

/-- The address after the last byte of the image. -/
def imageEnd (secs : List Section) : Nat :=
  match (image secs).getLast? with
  | some p => p.1.toNat + 1
  | none => 0

end Spec

def toNatPair (p : Int × UInt8) : Nat × UInt8 := (p.1.toNat, p.2)

theorem natBytes_eq (a : Int) (d : Bytes) (h : 0 ≤ a) :
    natBytes a.toNat d = (bytesAt a d).map toNatPair := by
  induction d generalizing a with
  | nil => rfl
  | cons b d ih =>
    simp only [natBytes, bytesAt, List.map_cons]
    rw [← ih (a + 1) (by omega)]
    congr 2
    omega

theorem natBytes_mem {a : Nat} {d : Bytes} {p : Nat × UInt8} (h : p ∈ natBytes a d) :
    a ≤ p.1 ∧ p.1 < a + d.length := by
  induction d generalizing a with
  | nil => simp [natBytes] at h
  | cons b d ih =>
    simp only [natBytes, List.mem_cons] at h
    simp only [List.length_cons]
    rcases h with rfl | h
    · simp only; omega
    · have := ih h; omega

theorem natBytes_at (a : Nat) (d : Bytes) (x : Nat) (h1 : a ≤ x) (h2 : x < a + d.length) :
    ∃ p ∈ natBytes a d, p.1 = x := by
  induction d generalizing a with
  | nil => simp only [List.length_nil] at h2; omega
  | cons b d ih =>
    by_cases hx : a = x
    · exact ⟨(a, b), by simp [natBytes], hx⟩
    · obtain ⟨p, hp, hpx⟩ := ih (a + 1) (by omega) (by simp only [List.length_cons] at h2; omega)
      exact ⟨p, by simp [natBytes, hp], hpx⟩

/-- The bytes of a block. -/
def blockBytes (b : Block) : List (Nat × UInt8) := natBytes b.address.toNat b.data

/-- Blocks as they result from a placed image. -/
structure BlocksOk (bs : List Block) : Prop where
  shape : ∀ b ∈ bs, 0 ≤ b.address ∧ 1 ≤ b.data.length ∧ b.data.length ≤ 32 ∧
    b.address + b.data.length ≤ 2 ^ 32
  sorted : (bs.flatMap blockBytes).Pairwise (fun p q => p.1 < q.1)

theorem BlocksOk.tail {b : Block} {bs : List Block} (h : BlocksOk (b :: bs)) : BlocksOk bs :=
  ⟨fun x hx => h.shape x (by simp [hx]), by
    have := h.sorted
    rw [List.flatMap_cons, List.pairwise_append] at this
    exact this.2.1⟩

theorem BlocksOk.after {b : Block} {bs : List Block} (h : BlocksOk (b :: bs)) :
    ∀ p ∈ blockBytes b, ∀ q ∈ bs.flatMap blockBytes, p.1 < q.1 := by
  have := h.sorted
  rw [List.flatMap_cons, List.pairwise_append] at this
  exact this.2.2

theorem writeLine_eq (b : Block) (h : 0 ≤ b.address) : writeLine b = wLine b.address.toNat b.data := by
  unfold writeLine wLine
  rw [pyHex_nat _ h]

theorem readLine_eq (b : Block) (h : 0 ≤ b.address) :
    readLine b = rLine b.address.toNat b.data.length := by
  unfold readLine rLine
  rw [pyHex_nat _ h, pyHex_nat _ (by omega)]
  simp

theorem dataHex_ff (n : Nat) : (List.replicate n (ascii "ff")).flatten = dataHex (List.replicate n 0xff) := by
  have : Can.hexByte false 0xff = ascii "ff" := by decide
  induction n with
  | zero => rfl
  | succ n ih =>
    rw [List.replicate_succ, List.flatten_cons, ih, List.replicate_succ]
    simp [dataHex, this]

section
variable {σ : Type} {hw : Hw σ}

/-! ## Writing -/

theorem writeBytes_valid {d : Bytes} {w w' : Writer σ} {a : Nat} (hfit : a + d.length ≤ 2 ^ 32)
    (h : writeBytes hw w a d = (none, w')) : ∀ p ∈ natBytes a d, Valid p.1 := by
  induction d generalizing w a with
  | nil => intro p hp; simp [natBytes] at hp
  | cons b d ih =>
    simp only [List.length_cons] at hfit
    unfold writeBytes at h
    rw [Nat.mod_eq_of_lt (by omega)] at h
    cases hb : writeByte hw w a b with
    | mk o w1 =>
      rw [hb] at h
      cases o with
      | some m => simp at h
      | none =>
        simp only at h
        intro p hp
        simp only [natBytes, List.mem_cons] at hp
        rcases hp with rfl | hp
        · exact (writeByte_acked hb).1
        · exact ih (by omega) h p hp

theorem flushWord_bits {w : Writer σ} (h0 : (w.flushWord hw).1 = 0) :
    (w.flushWord hw).2.shadowBits = 0 := by
  unfold Writer.flushWord at h0 ⊢
  simp only at h0 ⊢
  split at h0
  · next h => exact absurd h0 h
  · next h => rw [if_neg h]

theorem programByte_bits {w : Writer σ} {a : Nat} {v : UInt8} (h0 : (w.programByte hw a v).1 = 0) :
    (w.programByte hw a v).2.shadowBits ≠ ~~~ 0 := by
  have put : ∀ w : Writer σ, (w.putByte hw a v).1 = 0 → (w.putByte hw a v).2.shadowBits ≠ ~~~ 0 := by
    intro w h0
    unfold Writer.putByte at h0 ⊢
    simp only at h0 ⊢
    split at h0
    · next h =>
      rw [if_pos h, flushWord_bits h0]
      decide
    · next h => rw [if_neg h]; exact h
  unfold Writer.programByte at h0 ⊢
  split at h0
  · next h =>
    rw [if_pos h]
    simp only at h0 ⊢
    split at h0
    · next h' => exact absurd h0 h'
    · next h' => rw [if_neg h']; exact put _ h0
  · next h => rw [if_neg h]; exact put _ h0

theorem writeBytes_bits {d : Bytes} {w w' : Writer σ} {a : Nat}
    (h : writeBytes hw w a d = (none, w')) (hd : d ≠ []) : w'.shadowBits ≠ ~~~ 0 := by
  induction d generalizing w a with
  | nil => exact absurd rfl hd
  | cons b d ih =>
    unfold writeBytes at h
    cases hb : writeByte hw w (a % 2 ^ 32) b with
    | mk o w1 =>
      rw [hb] at h
      cases o with
      | some m => simp at h
      | none =>
        simp only at h
        cases d with
        | nil =>
          simp only [writeBytes, Prod.mk.injEq, true_and] at h
          subst h
          have hp := (writeByte_acked hb).2.2
          have := programByte_bits (hw := hw) (w := w) (a := a % 2 ^ 32) (v := b) (by rw [hp])
          rwa [hp] at this
        | cons c d => exact ih h (by simp)

/-- Each block is acknowledged exactly if all of its bytes were taken. -/
theorem block_command (l : Link σ) (hi : Idle l) (a : Nat) (d : Bytes) (ha : a < 2 ^ 32)
    (h1 : 1 ≤ d.length) (h2 : d.length ≤ 32) :
    ∃ o l', l.command hw (wLine a d) = some (o, l') ∧ Idle l' ∧
      l'.server.writer = (writeBytes hw l.server.writer a d).2 ∧
      ((∃ r, o = .bytes r) ↔ (writeBytes hw l.server.writer a d).1 = none) := by
  rcases write_command hw l hi a d ha h1 h2 with ⟨w', e1, e2⟩ | ⟨m, w', m', e1, e2⟩
  · exact ⟨_, _, e2, idle_done w', by rw [e1], by rw [e1]; simp⟩
  · exact ⟨_, _, e2, idle_done w', by rw [e1], by rw [e1]; simp⟩

theorem sendBlocks_idle {bs : List Block} (hok : BlocksOk bs) {l l' : Link σ} {r : Result}
    (hi : Idle l) (h : sendBlocks hw l bs = some (r, l')) : Idle l' := by
  induction bs generalizing l with
  | nil =>
    simp only [sendBlocks, Option.some.injEq, Prod.mk.injEq] at h
    rw [← h.2]; exact hi
  | cons b bs ih =>
    obtain ⟨s1, s2, s3, s4⟩ := hok.shape b (by simp)
    obtain ⟨o, l1, e1, e2, e3, e4⟩ := block_command (hw := hw) l hi b.address.toNat b.data
      (by omega) s2 s3
    unfold sendBlocks at h
    rw [writeLine_eq b s1, e1] at h
    cases o with
    | bytes r => exact ih hok.tail e2 h
    | _ => simp only [Option.some.injEq, Prod.mk.injEq] at h; rw [← h.2]; exact e2

theorem sendBlocks_inv (hS : SoundHw hw) {m0 : Mem} {bs : List Block} (hok : BlocksOk bs)
    {l l' : Link σ} {done : List (Nat × UInt8)} (hi : Idle l) (hinv : Inv m0 done l.server.writer)
    (ho : Order done l.server.writer) (hlt : ∀ p ∈ done, ∀ q ∈ bs.flatMap blockBytes, p.1 < q.1)
    (h : sendBlocks hw l bs = some (.ok, l')) :
    Inv m0 (done ++ bs.flatMap blockBytes) l'.server.writer ∧
    Order (done ++ bs.flatMap blockBytes) l'.server.writer := by
  induction bs generalizing l done with
  | nil =>
    simp only [sendBlocks, Option.some.injEq, Prod.mk.injEq, true_and] at h
    rw [← h]; simpa using ⟨hinv, ho⟩
  | cons b bs ih =>
    obtain ⟨s1, s2, s3, s4⟩ := hok.shape b (by simp)
    obtain ⟨o, l1, e1, e2, e3, e4⟩ := block_command (hw := hw) l hi b.address.toNat b.data
      (by omega) s2 s3
    unfold sendBlocks at h
    rw [writeLine_eq b s1, e1] at h
    cases o with
    | bytes r =>
      simp only at h
      have hnone := e4.mp ⟨r, rfl⟩
      have hd : blockBytes b ≠ [] := by
        unfold blockBytes
        cases hb : b.data with
        | nil => rw [hb] at s2; simp at s2
        | cons x d => simp [natBytes]
      obtain ⟨q0, hq0⟩ := List.exists_mem_of_ne_nil _ hd
      have hfirst : ∀ p ∈ done, p.1 < b.address.toNat := by
        intro p hp
        obtain ⟨q, hq, hqx⟩ := natBytes_at b.address.toNat b.data b.address.toNat (by omega) (by omega)
        have := hlt p hp q (by simp [blockBytes, hq])
        omega
      obtain ⟨i1, i2⟩ := writeBytes_inv hS b.data done l.server.writer l1.server.writer
        b.address.toNat hinv ho hfirst (by omega) (by rw [e3, ← hnone])
      have := ih hok.tail e2 i1 i2 (by
        intro p hp q hq
        rcases List.mem_append.mp hp with hp | hp
        · exact hlt p hp q (by simp only [List.flatMap_cons, List.mem_append]; exact Or.inr hq)
        · exact hok.after p hp q hq) h
      rw [List.flatMap_cons, ← List.append_assoc]
      exact this
    | _ => simp at h

theorem sendBlocks_good (hG : GoodHw hw) {m0 : Mem} {bs : List Block} (hok : BlocksOk bs)
    {l : Link σ} {done : List (Nat × UInt8)} (hi : Idle l) (hinv : Inv m0 done l.server.writer)
    (ho : Order done l.server.writer) (hlt : ∀ p ∈ done, ∀ q ∈ bs.flatMap blockBytes, p.1 < q.1)
    (hv : ∀ q ∈ bs.flatMap blockBytes, Valid q.1) :
    ∃ l', sendBlocks hw l bs = some (.ok, l') := by
  induction bs generalizing l done with
  | nil => exact ⟨l, rfl⟩
  | cons b bs ih =>
    obtain ⟨s1, s2, s3, s4⟩ := hok.shape b (by simp)
    obtain ⟨o, l1, e1, e2, e3, e4⟩ := block_command (hw := hw) l hi b.address.toNat b.data
      (by omega) s2 s3
    have hfirst : ∀ p ∈ done, p.1 < b.address.toNat := by
      intro p hp
      obtain ⟨q, hq, hqx⟩ := natBytes_at b.address.toNat b.data b.address.toNat (by omega) (by omega)
      have := hlt p hp q (by simp [blockBytes, hq])
      omega
    obtain ⟨w', hw'⟩ := writeBytes_good hG b.data done l.server.writer b.address.toNat hinv ho hfirst
      (fun p hp => hv p (by simp only [List.flatMap_cons, List.mem_append]; exact Or.inl hp))
    obtain ⟨r, rfl⟩ := e4.mpr (by rw [hw'])
    obtain ⟨i1, i2⟩ := writeBytes_inv hG.toSoundHw b.data done l.server.writer l1.server.writer
      b.address.toNat hinv ho hfirst (by omega) (by rw [e3, hw'])
    unfold sendBlocks
    rw [writeLine_eq b s1, e1]
    exact ih hok.tail e2 i1 i2 (by
      intro p hp q hq
      rcases List.mem_append.mp hp with hp | hp
      · exact hlt p hp q (by simp only [List.flatMap_cons, List.mem_append]; exact Or.inr hq)
      · exact hok.after p hp q hq)
      (fun q hq => hv q (by simp only [List.flatMap_cons, List.mem_append]; exact Or.inr hq))

/-! ## Verification -/

theorem memBytes_iff (m : Mem) (a : Nat) (d : Bytes) (hfit : a + d.length ≤ 2 ^ 32) :
    memBytes m a d.length = d ↔ ∀ p ∈ natBytes a d, m p.1 = p.2 := by
  have hm : memBytes m a d.length = (List.range d.length).map fun i => m (a + i) := by
    unfold memBytes
    apply List.map_congr_left
    intro i hi
    rw [List.mem_range] at hi
    rw [Nat.mod_eq_of_lt (by omega)]
  rw [hm]
  clear hm hfit
  induction d generalizing a with
  | nil => simp [natBytes]
  | cons b d ih =>
    rw [List.length_cons, List.range_succ_eq_map]
    simp only [List.map_cons, List.map_map, Nat.add_zero, List.cons.injEq, natBytes, List.mem_cons,
      forall_eq_or_imp]
    have : (fun i => m (a + i)) ∘ Nat.succ = fun i => m (a + 1 + i) := by
      funext i
      simp only [Function.comp_apply]
      congr 1
      omega
    rw [this]
    exact and_congr Iff.rfl (ih (a + 1))

/-- Verification succeeds exactly if the memory holds the bytes. -/
theorem verifyBlocks_iff {bs : List Block} (hok : BlocksOk bs) {l : Link σ} (hi : Idle l) :
    ∃ r l', verifyBlocks hw l bs = some (r, l') ∧ Idle l' ∧ l'.server.writer = l.server.writer ∧
      (r = .ok ↔ ∀ p ∈ bs.flatMap blockBytes, l.server.writer.mem p.1 = p.2) := by
  induction bs generalizing l with
  | nil => exact ⟨.ok, l, rfl, hi, rfl, by simp⟩
  | cons b bs ih =>
    obtain ⟨s1, s2, s3, s4⟩ := hok.shape b (by simp)
    have hq := read_query hw l hi b.address.toNat b.data.length (by omega) s2 s3
    have hv := verify_iff b l.server.writer.mem s1 (by omega)
    rw [memBytes_iff _ _ _ (by omega)] at hv
    unfold verifyBlocks
    rw [readLine_eq b s1, hq]
    simp only
    by_cases hm : ∀ p ∈ natBytes b.address.toNat b.data, l.server.writer.mem p.1 = p.2
    · rw [if_pos (hv.mpr hm)]
      obtain ⟨r, l', e1, e2, e3, e4⟩ := ih hok.tail (idle_done l.server.writer)
      refine ⟨r, l', e1, e2, e3, ?_⟩
      rw [e4]
      simp only [List.flatMap_cons, List.mem_append]
      constructor
      · rintro h p (hp | hp)
        · exact hm p hp
        · exact h p hp
      · intro h p hp; exact h p (Or.inr hp)
    · rw [if_neg (fun h => hm (hv.mp h))]
      refine ⟨_, _, rfl, idle_done _, rfl, ?_⟩
      simp only [List.flatMap_cons, List.mem_append, reduceCtorEq, false_iff]
      intro h
      exact hm (fun p hp => h p (Or.inl hp))

/-! ## Everything -/

theorem image_sorted {low : Int} {secs : List Section} (h : Placed low secs) :
    (image secs).Pairwise (fun p q => p.1 < q.1) ∧ ∀ p ∈ image secs, low ≤ p.1 := by
  have bytes : ∀ (d : Bytes) (a : Int), (bytesAt a d).Pairwise (fun p q => p.1 < q.1) := by
    intro d
    induction d with
    | nil => intro a; simp [bytesAt]
    | cons b d ih =>
      intro a
      simp only [bytesAt, List.pairwise_cons]
      refine ⟨?_, ih _⟩
      intro q hq
      have := bytesAt_mem hq
      omega
  induction secs generalizing low with
  | nil => simp [image]
  | cons s secs ih =>
    obtain ⟨a, d⟩ := s
    obtain ⟨h1, h2, h3⟩ := h
    obtain ⟨i1, i2⟩ := ih h3
    have hcons : image ((a, d) :: secs) = bytesAt a d ++ image secs := by simp [image]
    rw [hcons, List.pairwise_append]
    refine ⟨⟨bytes d a, i1, ?_⟩, ?_⟩
    · intro p hp q hq
      have := bytesAt_mem hp
      have := i2 q hq
      omega
    · intro p hp
      rcases List.mem_append.mp hp with hp | hp
      · have := bytesAt_mem hp; omega
      · have := i2 p hp; omega

theorem blocks_mono {secs : List Section} {n m : Nat} {c : Int} {bs : List Block} (hnm : n ≤ m)
    (h : blocks secs n c = some bs) : blocks secs m c = some bs := by
  induction n generalizing m c bs with
  | zero => simp [blocks] at h
  | succ n ih =>
    obtain ⟨m, rfl⟩ : ∃ k, m = k + 1 := ⟨m - 1, by omega⟩
    rw [blocks] at h ⊢
    split at h
    · next hc => rw [if_pos hc]; exact h
    · next hc =>
      rw [if_neg hc]
      cases hb : blocks secs n (advanceBlock secs c).1 with
      | none => rw [hb] at h; simp at h
      | some bs' =>
        rw [hb] at h
        rw [ih (m := m) (by omega) hb]
        exact h

theorem blocks_image (secs : List Section) (h : Placed 0 secs) (hne : secs ≠ [])
    (h32 : ∀ p ∈ image secs, p.1 < 2 ^ 32) :
    ∃ bs, (∀ n, (image secs).length ≤ n → blocks secs n (-1) = some bs) ∧ bs ≠ [] ∧ BlocksOk bs ∧
      bs.flatMap blockBytes = (image secs).map toNatPair ∧
      flushLine bs = wLine (imageEnd secs) (List.replicate (8 - imageEnd secs % 8) 0xff) ∧
      (∀ p ∈ image secs, p.1.toNat < imageEnd secs) ∧ imageEnd secs ≤ 2 ^ 32 := by
  obtain ⟨bs, h1, h2, h3⟩ := C21_blocks_cover secs h hne
  obtain ⟨srt, nonneg⟩ := image_sorted h
  have himg : image secs ≠ [] := by
    cases secs with
    | nil => exact absurd rfl hne
    | cons s secs =>
      obtain ⟨a, d⟩ := s
      have hd := h.2.1
      cases d with
      | nil => exact absurd rfl hd
      | cons x d => simp [image, bytesAt]
  have hbs : bs ≠ [] := by rintro rfl; exact himg (by rw [← h2]; rfl)
  have hflat : bs.flatMap blockBytes = (image secs).map toNatPair := by
    rw [← h2, List.map_flatMap]
    clear h1 h2 hbs
    induction bs with
    | nil => rfl
    | cons b bs ih =>
      rw [List.flatMap_cons, List.flatMap_cons, ih (fun x hx => h3 x (by simp [hx]))]
      congr 1
      exact natBytes_eq _ _ (h3 b (by simp)).1
  obtain ⟨bs', b, rfl⟩ : ∃ bs' b, bs = bs' ++ [b] :=
    ⟨bs.dropLast, bs.getLast hbs, (List.dropLast_append_getLast hbs).symm⟩
  obtain ⟨b1, b2, b3⟩ := h3 b (by simp)
  have hlast : ∃ x, (image secs).getLast? = some (b.address + b.data.length - 1, x) := by
    have : ∀ (d : Bytes) (a : Int), 1 ≤ d.length → ∃ x, (bytesAt a d).getLast? = some (a + d.length - 1, x) := by
      intro d
      induction d with
      | nil => intro a hd; simp at hd
      | cons y d ih =>
        intro a _
        cases d with
        | nil => exact ⟨y, by simp [bytesAt]⟩
        | cons z d =>
          obtain ⟨x, hx⟩ := ih (a + 1) (by simp)
          refine ⟨x, ?_⟩
          rw [bytesAt, List.getLast?_cons, hx]
          simp only [Option.getD_some, List.length_cons]
          congr 2
          push_cast
          omega
    obtain ⟨x, hx⟩ := this b.data b.address b2
    refine ⟨x, ?_⟩
    rw [← h2, List.flatMap_append, List.flatMap_singleton, List.getLast?_append, hx]
    rfl
  obtain ⟨x, hx⟩ := hlast
  have hmem := List.mem_of_getLast? hx
  have hend : imageEnd secs = (b.address + b.data.length).toNat := by
    unfold imageEnd
    rw [hx]
    simp only
    omega
  have hbound := h32 _ hmem
  simp only at hbound
  refine ⟨bs' ++ [b], h1, hbs, ⟨?_, ?_⟩, hflat, ?_, ?_, by omega⟩
  · intro y hy
    obtain ⟨y1, y2, y3⟩ := h3 y hy
    refine ⟨y1, y2, y3, ?_⟩
    obtain ⟨p, hp, hpx⟩ := natBytes_at y.address.toNat y.data (y.address.toNat + y.data.length - 1)
      (by omega) (by omega)
    have hin : p ∈ (image secs).map toNatPair := by
      rw [← hflat]
      exact List.mem_flatMap.mpr ⟨y, hy, hp⟩
    obtain ⟨q, hq, rfl⟩ := List.mem_map.mp hin
    have := h32 q hq
    simp only [toNatPair] at hpx
    omega
  · rw [hflat, List.pairwise_map]
    refine List.Pairwise.imp_of_mem ?_ srt
    intro p q hp hq hpq
    have := nonneg p hp
    simp only [toNatPair]
    omega
  · unfold flushLine wLine
    simp only [List.getLast?_append, List.getLast?_singleton, Option.some_or, Option.getD_some]
    rw [pyHex_nat _ (by omega), dataHex_ff, hend]
    congr 4
    omega
  · intro p hp
    obtain ⟨l', hl'⟩ : ∃ l', image secs = l' ++ [(b.address + b.data.length - 1, x)] :=
      List.getLast?_eq_some_iff.mp hx
    rw [hl'] at hp srt
    rw [List.pairwise_append] at srt
    rcases List.mem_append.mp hp with hp | hp
    · have := srt.2.2 p hp _ (List.mem_singleton.mpr rfl)
      simp only at this
      omega
    · simp only [List.mem_singleton] at hp
      subst hp
      simp only
      omega

theorem unlock_inv {w : Writer σ} (h1 : w.shadowStart = 0) (h2 : w.shadowBits = 0) :
    Inv w.mem [] w.unlock ∧ Order ([] : List (Nat × UInt8)) w.unlock := by
  have u1 : w.unlock.shadowStart = 0 := h1
  have u2 : w.unlock.shadowBits = 0 := h2
  refine ⟨⟨rfl, by simp, fun h => absurd u1 h, ?_, by rw [u1, u2]; simp, ?_, by simp, by simp,
    fun _ _ => rfl, ?_⟩, ⟨fun _ => by simp, fun _ _ _ => by simp⟩⟩
  · intro i _; right; rw [u2]; exact byteAt_zero i
  · intro i _ h
    rw [u2, byteAt_zero] at h
    exact absurd h (by decide)
  · intro a _ he
    simp [Writer.unlock] at he

end

end Verif.Flash
