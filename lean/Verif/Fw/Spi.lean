import Mathlib.Data.Nat.Notation
import Mathlib.Tactic.SplitIfs

/-!
# The SPI driver of the firmware (C119)

`finish_write`, `start_dma_transfer` and `is_dma_finished` of `Stm32Spi` (fw/stm32_spi.h).  A time is the number of reads
of the status register; what it contains at each of them and what the data register contains is up to the environment.

Not modelled: the setup of the peripheral and of the DMA channels, `start_write`, `set_cs`, interrupts in between.
-/

namespace Verif.Fw.Spi

/-! ## Model -/

/-- The registers as read at each time. -/
structure Bus where
  rxne : ℕ → Bool
  txe : ℕ → Bool
  bsy : ℕ → Bool
  dr : ℕ → ℕ

/-- `while (busy && timeout) { timeout--; }`: what is left of the timeout, and the time afterwards. -/
def waitWhile (busy : ℕ → Bool) : ℕ → ℕ → ℕ × ℕ
  | 0, t => (0, t + 1)
  | n + 1, t => if busy t then waitWhile busy n (t + 1) else (n + 1, t + 1)

/-- `finish_write` (fw/stm32_spi.h:123-136): the result, and the time at which chip select is released. -/
def finishWrite (b : Bus) (timeout t : ℕ) : ℕ × ℕ :=
  let w1 := waitWhile (fun i => !b.rxne i) timeout t
  let result := b.dr w1.2
  let w2 := waitWhile (fun i => !b.txe i) w1.1 w1.2
  let w3 := waitWhile b.bsy w2.1 w2.2
  (result, w3.2)

/-- A transfer by DMA: what is left for each channel, and how many bytes were read from the one buffer and stored in the other. -/
structure Dma where
  txLeft : ℕ
  rxLeft : ℕ
  read : ℕ
  stored : ℕ
  deriving DecidableEq

/-- `start_dma_transfer` (fw/stm32_spi.h:138-168) with the sizes of the buffers; note lines 154-155. -/
def startDma (txSize rxSize : ℕ) : Dma :=
  { rxLeft := txSize, txLeft := rxSize, read := 0, stored := 0 }

/-- One frame on the bus: a byte is sent and one comes back. -/
def frame (d : Dma) : Dma :=
  if d.txLeft = 0 then d
  else if d.rxLeft = 0 then { d with txLeft := d.txLeft - 1, read := d.read + 1 }
  else { txLeft := d.txLeft - 1, rxLeft := d.rxLeft - 1, read := d.read + 1, stored := d.stored + 1 }

def frames : ℕ → Dma → Dma
  | 0, d => d
  | n + 1, d => frames n (frame d)

/-- `is_dma_finished` (fw/stm32_spi.h:170-178), as far as the channels are concerned. -/
def finished (d : Dma) : Bool := d.txLeft == 0 && d.rxLeft == 0

/-! ## Proofs -/

private theorem waitWhile_spec (busy : ℕ → Bool) : ∀ (n t : ℕ),
    (waitWhile busy n t).1 + (waitWhile busy n t).2 = n + t + 1 ∧ t < (waitWhile busy n t).2 ∧
    ((waitWhile busy n t).1 = 0 ∨ busy ((waitWhile busy n t).2 - 1) = false) := by
  intro n
  induction n with
  | zero => intro t; simp [waitWhile]
  | succ n ih =>
    intro t
    rw [waitWhile]
    by_cases h : busy t = true
    · rw [if_pos h]
      obtain ⟨h1, h2, h3⟩ := ih (t + 1)
      exact ⟨by omega, by omega, h3⟩
    · rw [if_neg h]
      refine ⟨by simp; omega, by simp, .inr ?_⟩
      simpa using h

private theorem waitWhile_first (busy : ℕ → Bool) : ∀ (n t k : ℕ), k ≤ n → (∀ j, j < k → busy (t + j) = true) →
    (k = n ∨ busy (t + k) = false) → waitWhile busy n t = (n - k, t + k + 1) := by
  intro n
  induction n with
  | zero =>
    intro t k hk _ _
    have : k = 0 := by omega
    subst this
    rfl
  | succ n ih =>
    intro t k hk hj he
    rw [waitWhile]
    cases k with
    | zero =>
      have : busy t = false := by
        rcases he with he | he
        · omega
        · simpa using he
      rw [this]
      simp
    | succ k =>
      have h0 := hj 0 (by omega)
      rw [Nat.add_zero] at h0
      rw [if_pos h0, ih (t + 1) k (by omega)]
      · congr 1 <;> omega
      · intro j hjk
        have := hj (j + 1) (by omega)
        rwa [show t + (j + 1) = t + 1 + j by omega] at this
      · rcases he with he | he
        · left; omega
        · right
          rwa [show t + (k + 1) = t + 1 + k by omega] at he

/-- **C119, it ends**: however the peripheral behaves, `finish_write` reads the status register at most `timeout + 3` times. -/
theorem C119_ends (b : Bus) (timeout t : ℕ) : (finishWrite b timeout t).2 ≤ t + timeout + 3 := by
  unfold finishWrite
  simp only
  have h1 := waitWhile_spec (fun i => !b.rxne i) timeout t
  have h2 := waitWhile_spec (fun i => !b.txe i) (waitWhile (fun i => !b.rxne i) timeout t).1 (waitWhile (fun i => !b.rxne i) timeout t).2
  have h3 := waitWhile_spec b.bsy
    (waitWhile (fun i => !b.txe i) (waitWhile (fun i => !b.rxne i) timeout t).1 (waitWhile (fun i => !b.rxne i) timeout t).2).1
    (waitWhile (fun i => !b.txe i) (waitWhile (fun i => !b.rxne i) timeout t).1 (waitWhile (fun i => !b.rxne i) timeout t).2).2
  omega

/-- **C119, the word**: if one has arrived at the `k`-th read, within the timeout, that is the result. -/
theorem C119_word_partial (b : Bus) (timeout t k : ℕ) (hk : k ≤ timeout) (hj : ∀ j, j < k → b.rxne (t + j) = false)
    (he : b.rxne (t + k) = true) (w : ℕ) (hw : ∀ i, t + k < i → b.dr i = w) :
    (finishWrite b timeout t).1 = w := by
  unfold finishWrite
  simp only
  rw [waitWhile_first _ timeout t k hk (fun j h => by simp [hj j h]) (.inr (by simp [he]))]
  exact hw _ (by simp)

/-- **C119, chip select** is released only after the peripheral was seen idle, unless the timeout is used up. -/
theorem C119_release (b : Bus) (timeout t : ℕ) :
    (finishWrite b timeout t).2 = t + timeout + 3 ∨ b.bsy ((finishWrite b timeout t).2 - 1) = false := by
  unfold finishWrite
  simp only
  have h1 := waitWhile_spec (fun i => !b.rxne i) timeout t
  have h2 := waitWhile_spec (fun i => !b.txe i) (waitWhile (fun i => !b.rxne i) timeout t).1 (waitWhile (fun i => !b.rxne i) timeout t).2
  have h3 := waitWhile_spec b.bsy
    (waitWhile (fun i => !b.txe i) (waitWhile (fun i => !b.rxne i) timeout t).1 (waitWhile (fun i => !b.rxne i) timeout t).2).1
    (waitWhile (fun i => !b.txe i) (waitWhile (fun i => !b.rxne i) timeout t).1 (waitWhile (fun i => !b.rxne i) timeout t).2).2
  rcases h3.2.2 with h | h
  · left; omega
  · exact .inr h

/-- the hypotheses: a word after two reads. -/
example : let b : Bus := ⟨fun i => decide (2 ≤ i), fun _ => true, fun i => decide (i < 6), fun _ => 77⟩
    finishWrite b 10 0 = (77, 7) ∧ b.rxne 1 = false ∧ b.rxne 2 = true := by decide

/-- **C119 is violated if no word arrives**: the result is what the data register contains, for instance the word of the
transfer before, and nothing tells it from an answer. -/
theorem C119_timeout_refuted (timeout t old : ℕ) :
    ∃ silent answers : Bus, (∀ i, silent.rxne i = false) ∧ (∀ i, answers.rxne i = true) ∧
      (finishWrite silent timeout t).1 = old ∧ (finishWrite answers timeout t).1 = old :=
  ⟨⟨fun _ => false, fun _ => true, fun _ => false, fun _ => old⟩, ⟨fun _ => true, fun _ => true, fun _ => false, fun _ => old⟩,
    fun _ => rfl, fun _ => rfl, rfl, rfl⟩

private theorem frames_spec : ∀ (n : ℕ) (d : Dma),
    frames n d = ⟨d.txLeft - n, d.rxLeft - min n d.txLeft, d.read + min n d.txLeft, d.stored + min (min n d.txLeft) d.rxLeft⟩ := by
  intro n
  induction n with
  | zero => intro d; cases d; simp [frames]
  | succ n ih =>
    intro d
    rw [frames, ih]
    unfold frame
    cases d with
    | mk a b r s =>
      simp only
      split_ifs with h1 h2
      · subst h1; simp
      · subst h2; simp only [Dma.mk.injEq]; omega
      · simp only [Dma.mk.injEq]; omega

/-- **C119, DMA**: with buffers of one size the transfer is finished after that many frames and not before, and at every time neither more is
read nor stored than there is; at the end exactly that. -/
theorem C119_dma_partial (size n : ℕ) :
    (finished (frames n (startDma size size)) = true ↔ size ≤ n) ∧
    (frames n (startDma size size)).read = min n size ∧ (frames n (startDma size size)).stored = min n size := by
  rw [frames_spec]
  simp only [startDma, finished, Bool.and_eq_true, beq_iff_eq]
  omega

/-- **C119 is violated for buffers of different sizes**, which are confused: with a larger one to send the transfer never
finishes (and `finish_dma_transfer` waits for ever); with a smaller one, memory behind it is sent and the other one is not filled. -/
theorem C119_dma_refuted (txSize rxSize : ℕ) :
    (rxSize < txSize → ∀ n, finished (frames n (startDma txSize rxSize)) = false) ∧
    (txSize < rxSize → ∀ n, finished (frames n (startDma txSize rxSize)) = true →
      txSize < (frames n (startDma txSize rxSize)).read ∧ (frames n (startDma txSize rxSize)).stored < rxSize) := by
  refine ⟨fun h n => ?_, fun h n => ?_⟩
  · rw [frames_spec]
    simp only [startDma, finished, Bool.and_eq_false_iff, beq_eq_false_iff_ne]
    omega
  · rw [frames_spec]
    simp only [startDma, finished, Bool.and_eq_true, beq_iff_eq]
    omega

example : finished (frames 5 (startDma 3 5)) = true ∧ (3 : ℕ) < 5 := by decide

end Verif.Fw.Spi
