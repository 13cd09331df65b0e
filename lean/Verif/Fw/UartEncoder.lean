import Mathlib.Tactic.Linarith
import Mathlib.Tactic.Ring
import Mathlib.Tactic.IntervalCases
import Mathlib.Data.Nat.Bitwise
import Mathlib.Data.List.Basic
import Mathlib.Data.List.Induction

/-!
# Property C78: encoders on a serial line

Model of `fw/cui_amt21.h` and `fw/aksim2.h`, which poll an encoder over a UART.  The two drivers have the
same structure and differ in the byte that is sent, the length of the answer and its evaluation.

The UART with its DMA (fw/stm32g4_dma_uart.h) is modelled by the bytes that it has stored since
`start_dma_read`.  Which bytes arrive, and when, is arbitrary.  Bytes that arrive while no read is in
progress are dropped, those that a FIFO of the UART may keep are covered by bytes that arrive later.
-/

namespace Verif.Fw

/-! ## Model -/

/-- `aux::UartEncoder::Status` (fw/aux_common.h:110-118): unsigned integers of 32, 8, 16 and 16 bits. -/
structure UartStatus where
  active : Bool := false
  value : ℕ := 0
  nonce : ℕ := 0
  err : Bool := false
  warn : Bool := false
  akStatus : ℕ := 0
  checksumErrors : ℕ := 0
  deriving DecidableEq, Repr

/-- What differs between the two drivers. -/
structure UartDriver where
  /-- The byte that is written, and expected as the first of the answer. -/
  header : ℕ
  /-- The bytes of an answer; the buffer has `kResyncBytes` = 3 more. -/
  need : ℕ
  /-- The evaluation of the buffer. -/
  accept : List ℕ → UartStatus → UartStatus

/-- The members of the drivers (fw/cui_amt21.h:122-133, fw/aksim2.h:104-118): a query is outstanding, when
it was made (a `uint32_t` of microseconds), and the bytes in the buffer that were received since. -/
structure UartState where
  outstanding : Bool := false
  last : ℕ := 0
  rx : List ℕ := []
  status : UartStatus := {}
  deriving DecidableEq, Repr

/-- A subtraction of `uint32_t`. -/
def sub32 (a b : ℕ) : ℕ := (a + 2 ^ 32 - b % 2 ^ 32) % 2 ^ 32

/-- The conversion of an `int` to `uint32_t`. -/
def uartU32 (x : ℤ) : ℕ := (x % 2 ^ 32).toNat

/-- `ProcessQuery` (fw/cui_amt21.h:59-80, fw/aksim2.h:61-79) up to the evaluation of the buffer. -/
def UartDriver.process (d : UartDriver) (s : UartState) : UartState :=
  let remaining := d.need + 3 - s.rx.length
  if remaining > 3 then s
  else if remaining = 0 then { s with outstanding := false }
  else if s.rx.headD 0 ≠ d.header then s
  else { s with outstanding := false, status := d.accept s.rx s.status }

/-- The second part of `ISR_Update` (fw/cui_amt21.h:45-55, fw/aksim2.h:48-58): a new query, if none is
outstanding and the last one is old enough.  The second component tells whether it was sent. -/
def UartDriver.ask (poll : ℤ) (now delta : ℕ) (s : UartState) : UartState × Bool :=
  if s.outstanding then (s, false)
  else if delta < uartU32 poll then (s, false)
  else ({ s with last := now, outstanding := true, rx := [] }, true)

/-- `ISR_Update` (fw/cui_amt21.h:30-56, fw/aksim2.h:31-59). -/
def UartDriver.update (d : UartDriver) (poll : ℤ) (now : ℕ) (s : UartState) : UartState × Bool :=
  let delta := sub32 now s.last
  UartDriver.ask poll now delta
    (if s.outstanding then
      if delta > uartU32 (2 * poll) then { s with outstanding := false } else d.process s
    else s)

/-- One call of `ISR_Update` at the time `now` after some bytes have arrived: the DMA stores them as long
as there is space in the buffer. -/
def UartDriver.tick (d : UartDriver) (poll : ℤ) (s : UartState) (t : ℕ × List ℕ) : UartState × Bool :=
  d.update poll t.1 (if s.outstanding then { s with rx := (s.rx ++ t.2).take (d.need + 3) } else s)

/-- The state after a sequence of calls. -/
def UartDriver.run (d : UartDriver) (poll : ℤ) : List (ℕ × List ℕ) → UartState :=
  List.foldl (fun s t => (d.tick poll s t).1) {}

/-- The lambda `even_parity` (fw/cui_amt21.h:85-94). -/
def evenParity (v : ℕ) : Bool :=
  (1 ^^^ ((v >>> 0) &&& 1) ^^^ ((v >>> 2) &&& 1) ^^^ ((v >>> 4) &&& 1) ^^^ ((v >>> 6) &&& 1) ^^^
    ((v >>> 8) &&& 1) ^^^ ((v >>> 10) &&& 1) ^^^ ((v >>> 12) &&& 1)) ≠ 0

/-- The lambda `odd_parity` (fw/cui_amt21.h:96-98). -/
def oddParity (v : ℕ) : Bool := evenParity (v >>> 1)

/-- The evaluation of the buffer by `CuiAmt21` (fw/cui_amt21.h:82-113). -/
def cuiAccept (b : List ℕ) (s : UartStatus) : UartStatus :=
  let value := b.getD 1 0 ||| (b.getD 2 0 <<< 8)
  if decide (value &&& 0x8000 ≠ 0) ≠ oddParity value ∨ decide (value &&& 0x4000 ≠ 0) ≠ evenParity value then
    { s with checksumErrors := (s.checksumErrors + 1) % 2 ^ 16 }
  else { s with value := value &&& 0x3fff, nonce := (s.nonce + 1) % 2 ^ 8, active := true }

/-- The evaluation of the buffer by `Aksim2` (fw/aksim2.h:81-96). -/
def aksimAccept (b : List ℕ) (s : UartStatus) : UartStatus :=
  { s with
    value := ((b.getD 1 0 <<< 16) ||| (b.getD 2 0 <<< 8) ||| (b.getD 3 0 <<< 0)) >>> 2
    err := b.getD 3 0 &&& 2 ≠ 0
    warn := b.getD 3 0 &&& 1 ≠ 0
    akStatus := (b.getD 4 0 <<< 8) ||| (b.getD 5 0 <<< 0)
    nonce := (s.nonce + 1) % 2 ^ 8
    active := b.getD 3 0 &&& 2 ≠ 0 }

/-- `CuiAmt21` with the configured address. -/
def cuiAmt21 (address : ℕ) : UartDriver := ⟨address, 3, cuiAccept⟩

/-- `Aksim2`: the query is the letter `d`. -/
def aksim2 : UartDriver := ⟨100, 6, aksimAccept⟩

/-! ## Specification -/

namespace Spec

/-- The time from `a` to `b` on a clock of microseconds that wraps around after `2^32`. -/
def elapsed (a b : ℕ) : ℕ := (((b : ℤ) - a) % 2 ^ 32).toNat

/-- The bytes that arrived in a sequence of calls. -/
def arrived (ts : List (ℕ × List ℕ)) : List ℕ := ts.flatMap Prod.snd

/-- The exclusive or of the bits of `v` at the positions in `l`. -/
def xorBits (v : ℕ) (l : List ℕ) : Bool := l.foldr (fun k b => xor (v.testBit k) b) false

/-- The answer of an AMT21 to a position of 14 bits (data sheet of the AMT21): low byte and high byte,
with check bits `K1` (bit 15) and `K0` (bit 14) such that `K1 = !(H5^H3^H1^L7^L5^L3^L1)` and
`K0 = !(H4^H2^H0^L6^L4^L2^L0)`. -/
structure CuiAnswer (v lo hi : ℕ) : Prop where
  lo_lt : lo < 256
  hi_lt : hi < 256
  position : v = lo + 256 * (hi % 64)
  k1 : hi.testBit 7 = !(xor (xorBits hi [5, 3, 1]) (xorBits lo [7, 5, 3, 1]))
  k0 : hi.testBit 6 = !(xor (xorBits hi [4, 2, 0]) (xorBits lo [6, 4, 2, 0]))

end Spec

open Spec

/-! ## Proofs -/

theorem sub32_eq (a b : ℕ) : sub32 a b = elapsed b a := by
  unfold sub32 elapsed
  omega

theorem uartU32_of {x : ℤ} (h0 : 0 ≤ x) (h1 : x < 2 ^ 32) : (uartU32 x : ℤ) = x := by
  unfold uartU32; omega

theorem arrived_append (a b : List (ℕ × List ℕ)) : arrived (a ++ b) = arrived a ++ arrived b := by
  simp [arrived]

theorem uartRun_append (d : UartDriver) (poll : ℤ) (ts : List (ℕ × List ℕ)) (t : ℕ × List ℕ) :
    d.run poll (ts ++ [t]) = (d.tick poll (d.run poll ts) t).1 := by
  simp [UartDriver.run, List.foldl_append]

section

variable {d : UartDriver} {poll : ℤ}

/-- Whether the call `t` after the calls `ts` sends a query. -/
def UartDriver.Asks (d : UartDriver) (poll : ℤ) (ts : List (ℕ × List ℕ)) (t : ℕ × List ℕ) : Prop :=
  (d.tick poll (d.run poll ts) t).2 = true

/-- No query is sent in the calls `mid` after the calls `pre`. -/
def UartDriver.Silent (d : UartDriver) (poll : ℤ) (pre mid : List (ℕ × List ℕ)) : Prop :=
  ∀ a t b, mid = a ++ t :: b → ¬ d.Asks poll (pre ++ a) t

theorem Silent_nil (pre : List (ℕ × List ℕ)) : d.Silent poll pre [] := by
  intro a t b h
  simp at h

theorem Silent_concat {pre mid : List (ℕ × List ℕ)} {t : ℕ × List ℕ} (h : d.Silent poll pre mid)
    (h' : ¬ d.Asks poll (pre ++ mid) t) : d.Silent poll pre (mid ++ [t]) := by
  intro a u b e
  rcases List.eq_nil_or_concat b with rfl | ⟨b', x, rfl⟩
  · obtain ⟨rfl, e2⟩ := List.append_inj' e rfl
    simp at e2
    subst e2
    exact h'
  · have : mid ++ [t] = (a ++ u :: b') ++ [x] := by simpa using e
    obtain ⟨rfl, -⟩ := List.append_inj' this rfl
    exact h a u b' rfl

theorem process_cases (s : UartState) : d.process s = s ∨
    d.process s = { s with outstanding := false } ∨
    (d.need ≤ s.rx.length ∧ s.rx.length < d.need + 3 ∧ s.rx.headD 0 = d.header ∧
      d.process s = { s with outstanding := false, status := d.accept s.rx s.status }) := by
  unfold UartDriver.process
  dsimp only
  split
  · exact .inl rfl
  · split
    · exact .inr (.inl rfl)
    · split
      · exact .inl rfl
      · rename_i h1 h2 h3
        exact .inr (.inr ⟨by omega, by omega, not_not.mp h3, rfl⟩)

theorem process_wait (s : UartState) (h : s.rx.length < d.need) : d.process s = s := by
  unfold UartDriver.process
  exact if_pos (by omega)

theorem process_accept (s : UartState) (h1 : d.need ≤ s.rx.length) (h2 : s.rx.length < d.need + 3)
    (h3 : s.rx.headD 0 = d.header) :
    d.process s = { s with outstanding := false, status := d.accept s.rx s.status } := by
  unfold UartDriver.process
  dsimp only
  rw [if_neg (by omega), if_neg (by omega), if_neg (not_not.mpr h3)]

theorem ask_cases (now delta : ℕ) (s : UartState) :
    (s.outstanding = true ∧ UartDriver.ask poll now delta s = (s, false)) ∨
    (s.outstanding = false ∧ delta < uartU32 poll ∧ UartDriver.ask poll now delta s = (s, false)) ∨
    (s.outstanding = false ∧ uartU32 poll ≤ delta ∧
      UartDriver.ask poll now delta s = ({ s with last := now, outstanding := true, rx := [] }, true)) := by
  unfold UartDriver.ask
  cases ho : s.outstanding
  · by_cases h : delta < uartU32 poll
    · exact .inr (.inl ⟨rfl, h, by simp [h]⟩)
    · exact .inr (.inr ⟨rfl, by omega, by simp [h]⟩)
  · exact .inl ⟨rfl, by simp⟩

/-- The first part of a call: what becomes of the query that is outstanding. -/
theorem tick_eq (s : UartState) (t : ℕ × List ℕ) : ∃ s1,
    d.tick poll s t = UartDriver.ask poll t.1 (elapsed s.last t.1) s1 ∧ s1.last = s.last ∧
    ((s.outstanding = false ∧ s1 = s) ∨
     (s.outstanding = true ∧ uartU32 (2 * poll) < elapsed s.last t.1 ∧ s1.outstanding = false ∧
        s1.status = s.status) ∨
     (s.outstanding = true ∧ elapsed s.last t.1 ≤ uartU32 (2 * poll) ∧
        s1 = d.process { s with rx := (s.rx ++ t.2).take (d.need + 3) })) := by
  unfold UartDriver.tick UartDriver.update
  simp only [sub32_eq]
  cases ho : s.outstanding
  · exact ⟨s, by simp [ho], rfl, .inl ⟨rfl, rfl⟩⟩
  · simp only [if_true]
    by_cases h1 : elapsed s.last t.1 > uartU32 (2 * poll)
    · simp only [h1, if_true]
      exact ⟨_, rfl, rfl, .inr (.inl ⟨by simp, by simp, rfl, rfl⟩)⟩
    · simp only [h1, if_false]
      refine ⟨_, rfl, ?_, .inr (.inr ⟨by simp, by omega, rfl⟩)⟩
      rcases process_cases (d := d) { s with rx := (s.rx ++ t.2).take (d.need + 3) } with
        hp | hp | ⟨g1, g2, g3, hp⟩ <;> rw [ho] at hp <;> rw [hp]

/-- A call that sends a query. -/
theorem tick_asks {s : UartState} {t : ℕ × List ℕ} (h : (d.tick poll s t).2 = true) :
    (d.tick poll s t).1.outstanding = true ∧ (d.tick poll s t).1.last = t.1 ∧
      (d.tick poll s t).1.rx = [] ∧ uartU32 poll ≤ elapsed s.last t.1 := by
  obtain ⟨s1, e, el, -⟩ := tick_eq (d := d) (poll := poll) s t
  rw [e] at h ⊢
  rcases ask_cases (poll := poll) t.1 (elapsed s.last t.1) s1 with ⟨-, h1⟩ | ⟨-, -, h1⟩ | ⟨-, h2, h1⟩
  · simp [h1] at h
  · simp [h1] at h
  · rw [h1]; exact ⟨rfl, rfl, rfl, h2⟩

/-- The status after the first part is the status after the call. -/
theorem ask_status (now delta : ℕ) (s : UartState) :
    (UartDriver.ask poll now delta s).1.status = s.status := by
  rcases ask_cases (poll := poll) now delta s with ⟨-, h1⟩ | ⟨-, -, h1⟩ | ⟨-, h2, h1⟩ <;> rw [h1]

/-- A call later than two poll intervals after the last query sends one, and ignores what was received. -/
theorem tick_late {s : UartState} {t : ℕ × List ℕ} (h : uartU32 (2 * poll) < elapsed s.last t.1)
    (h' : uartU32 poll ≤ elapsed s.last t.1) :
    (d.tick poll s t).2 = true ∧ (d.tick poll s t).1.status = s.status := by
  obtain ⟨s1, e, el, c⟩ := tick_eq (d := d) (poll := poll) s t
  have ho : s1.outstanding = false ∧ s1.status = s.status := by
    rcases c with ⟨c1, rfl⟩ | ⟨-, -, c1, c2⟩ | ⟨-, c1, -⟩
    · exact ⟨c1, rfl⟩
    · exact ⟨c1, c2⟩
    · omega
  rw [e, ask_status]
  refine ⟨?_, ho.2⟩
  rcases ask_cases (poll := poll) t.1 (elapsed s.last t.1) s1 with ⟨h0, h1⟩ | ⟨-, h0, h1⟩ | ⟨-, h2, h1⟩
  · simp [h0] at ho
  · omega
  · rw [h1]

/-- A call that changes the status evaluates the buffer. -/
theorem tick_status {s : UartState} {t : ℕ × List ℕ} (h : (d.tick poll s t).1.status ≠ s.status) :
    s.outstanding = true ∧ elapsed s.last t.1 ≤ uartU32 (2 * poll) ∧
      d.need ≤ ((s.rx ++ t.2).take (d.need + 3)).length ∧
      ((s.rx ++ t.2).take (d.need + 3)).length < d.need + 3 ∧
      ((s.rx ++ t.2).take (d.need + 3)).headD 0 = d.header ∧
      (d.tick poll s t).1.status = d.accept ((s.rx ++ t.2).take (d.need + 3)) s.status := by
  obtain ⟨s1, e, el, c⟩ := tick_eq (d := d) (poll := poll) s t
  rw [e, ask_status] at h ⊢
  rcases c with ⟨c1, rfl⟩ | ⟨-, -, c1, c2⟩ | ⟨c1, c2, rfl⟩
  · simp at h
  · exact absurd c2 h
  · rcases process_cases (d := d) { s with rx := (s.rx ++ t.2).take (d.need + 3) } with
        hp | hp | ⟨g1, g2, g3, hp⟩
    · simp [hp] at h
    · simp [hp] at h
    · exact ⟨c1, c2, g1, g2, g3, by rw [hp]⟩

/-- A call after which a query is outstanding that it did not send. -/
theorem tick_waits {s : UartState} {t : ℕ × List ℕ} (h : (d.tick poll s t).1.outstanding = true)
    (h' : (d.tick poll s t).2 ≠ true) :
    s.outstanding = true ∧
      (d.tick poll s t).1 = { s with rx := (s.rx ++ t.2).take (d.need + 3) } := by
  obtain ⟨s1, e, el, c⟩ := tick_eq (d := d) (poll := poll) s t
  rw [e] at h h' ⊢
  rcases ask_cases (poll := poll) t.1 (elapsed s.last t.1) s1 with ⟨h0, h1⟩ | ⟨h0, -, h1⟩ | ⟨-, h2, h1⟩
  · rw [h1]
    rcases c with ⟨c1, rfl⟩ | ⟨-, -, c1, c2⟩ | ⟨c1, c2, rfl⟩
    · simp [c1] at h0
    · simp [c1] at h0
    · refine ⟨c1, ?_⟩
      rcases process_cases (d := d) { s with rx := (s.rx ++ t.2).take (d.need + 3) } with
        hp | hp | ⟨g1, g2, g3, hp⟩
      · exact hp
      · simp [hp] at h0
      · simp [hp] at h0
  · rw [h1] at h; simp [h0] at h
  · rw [h1] at h'; simp at h'

/-- The time of the last query. -/
theorem tick_last {s : UartState} {t : ℕ × List ℕ} (h : (d.tick poll s t).2 ≠ true) :
    (d.tick poll s t).1.last = s.last := by
  obtain ⟨s1, e, el, c⟩ := tick_eq (d := d) (poll := poll) s t
  rw [e] at h ⊢
  rcases ask_cases (poll := poll) t.1 (elapsed s.last t.1) s1 with ⟨h0, h1⟩ | ⟨h0, -, h1⟩ | ⟨-, h2, h1⟩
  · rw [h1]; exact el
  · rw [h1]; exact el
  · rw [h1] at h; simp at h

theorem take_take_append (n : ℕ) (a b : List ℕ) : (a.take n ++ b).take n = (a ++ b).take n := by
  rcases le_total n a.length with h | h
  · rw [List.take_append_of_le_length (by simp [h]), List.take_append_of_le_length h, List.take_take,
      min_self]
  · rw [List.take_of_length_le h]

/-- The query that is outstanding: when it was sent, and what arrived since. -/
theorem outstanding_inv (ts : List (ℕ × List ℕ)) (h : (d.run poll ts).outstanding = true) :
    ∃ pre q mid, ts = pre ++ q :: mid ∧ d.Asks poll pre q ∧ d.Silent poll (pre ++ [q]) mid ∧
      (d.run poll ts).last = q.1 ∧ (d.run poll ts).rx = (arrived mid).take (d.need + 3) ∧
      (d.run poll ts).status = (d.run poll (pre ++ [q])).status := by
  induction ts using List.reverseRecOn with
  | nil => simp [UartDriver.run] at h
  | append_singleton ts t ih =>
    rw [uartRun_append] at h ⊢
    by_cases ha : (d.tick poll (d.run poll ts) t).2 = true
    · obtain ⟨h1, h2, h3, -⟩ := tick_asks ha
      exact ⟨ts, t, [], rfl, ha, Silent_nil _, h2, by simp [h3, arrived], by rw [uartRun_append]⟩
    · obtain ⟨h1, h2⟩ := tick_waits h ha
      obtain ⟨pre, q, mid, rfl, g1, g2, g3, g4, g5⟩ := ih h1
      refine ⟨pre, q, mid ++ [t], by simp, g1, Silent_concat g2 ?_, ?_, ?_, ?_⟩
      · rw [List.append_assoc]; exact ha
      · rw [h2]; exact g3
      · rw [h2, g4, arrived_append]
        simp only [arrived, List.flatMap_cons, List.flatMap_nil, List.append_nil]
        exact take_take_append _ _ _
      · rw [h2]; exact g5

/-- The time of the last query, whether or not it is outstanding. -/
theorem last_inv (pre mid : List (ℕ × List ℕ)) (q : ℕ × List ℕ) (h : d.Asks poll pre q)
    (hs : d.Silent poll (pre ++ [q]) mid) : (d.run poll (pre ++ q :: mid)).last = q.1 := by
  induction mid using List.reverseRecOn with
  | nil => rw [uartRun_append]; exact (tick_asks h).2.1
  | append_singleton mid t ih =>
    have : pre ++ q :: (mid ++ [t]) = (pre ++ q :: mid) ++ [t] := by simp
    rw [this, uartRun_append]
    have ha : ¬ d.Asks poll ((pre ++ [q]) ++ mid) t := hs mid t [] rfl
    rw [List.append_assoc] at ha
    change ¬ (d.tick poll (d.run poll (pre ++ q :: mid)) t).2 = true at ha
    rw [tick_last ha]
    exact ih fun a u b e => hs a u (b ++ [t]) (by simp [e])

/-- **C78**: queries are at least one poll interval apart. -/
theorem C78_interval (hp : 0 ≤ poll) (hp' : poll < 2 ^ 30) (pre mid : List (ℕ × List ℕ))
    (q t : ℕ × List ℕ) (h : d.Asks poll pre q) (hs : d.Silent poll (pre ++ [q]) mid)
    (ha : d.Asks poll (pre ++ q :: mid) t) : poll ≤ elapsed q.1 t.1 := by
  have := (tick_asks ha).2.2.2
  rw [last_inv pre mid q h hs] at this
  have := uartU32_of hp (by omega)
  omega

/-- **C78**: the encoder is asked again at the first call later than two poll intervals after the last
query, whatever it answered. -/
theorem C78_asks_again (hp : 0 ≤ poll) (hp' : poll < 2 ^ 30) (pre mid : List (ℕ × List ℕ))
    (q t : ℕ × List ℕ) (h : d.Asks poll pre q) (hs : d.Silent poll (pre ++ [q]) mid)
    (ht : 2 * poll < elapsed q.1 t.1) : d.Asks poll (pre ++ q :: mid) t := by
  refine (tick_late ?_ ?_).1 <;> rw [last_inv pre mid q h hs]
  · have := uartU32_of (x := 2 * poll) (by omega) (by omega)
    omega
  · have := uartU32_of hp (by omega)
    omega

/-- **C78**: the status changes only by the answer to a query: the bytes that arrived since the query, with
the right first byte, complete, at most two poll intervals after it.  Each query has at most one answer. -/
theorem C78_answers (hn : 0 < d.need) (hp : 0 ≤ poll) (hp' : poll < 2 ^ 30) (ts : List (ℕ × List ℕ)) (t : ℕ × List ℕ)
    (h : (d.run poll (ts ++ [t])).status ≠ (d.run poll ts).status) :
    ∃ pre q mid, ts = pre ++ q :: mid ∧ d.Asks poll pre q ∧ d.Silent poll (pre ++ [q]) mid ∧
      (d.run poll ts).status = (d.run poll (pre ++ [q])).status ∧
      elapsed q.1 t.1 ≤ 2 * poll ∧ d.need ≤ (arrived (mid ++ [t])).length ∧
      (arrived (mid ++ [t])).head? = some d.header ∧
      (d.run poll (ts ++ [t])).status =
        d.accept (arrived (mid ++ [t])) (d.run poll (pre ++ [q])).status := by
  rw [uartRun_append] at h ⊢
  obtain ⟨h1, h2, h3, h4, h5, h6⟩ := tick_status h
  obtain ⟨pre, q, mid, e, g1, g2, g3, g4, g5⟩ := outstanding_inv ts h1
  rw [g4, take_take_append] at h3 h4 h5 h6
  have ea : arrived mid ++ t.2 = arrived (mid ++ [t]) := by
    rw [arrived_append]; simp [arrived]
  rw [ea] at h3 h4 h5 h6
  have hlen : (arrived (mid ++ [t])).length < d.need + 3 := by
    rw [List.length_take] at h4
    omega
  rw [List.take_of_length_le hlen.le] at h3 h5 h6
  refine ⟨pre, q, mid, e, g1, g2, g5, ?_, h3, ?_, by rw [h6, g5]⟩
  · rw [g3] at h2
    have := uartU32_of (x := 2 * poll) (by omega) (by omega)
    omega
  · cases hx : arrived (mid ++ [t]) with
    | nil => rw [hx] at h3; simp at h3; omega
    | cons a l => rw [hx] at h5; simpa using h5

/-- The calls after a query until its answer is complete. -/
theorem uart_waiting (hp : 0 ≤ poll) (hp' : poll < 2 ^ 30) (pre mid : List (ℕ × List ℕ)) (q : ℕ × List ℕ)
    (h : d.Asks poll pre q) (ht : ∀ t ∈ mid, elapsed q.1 t.1 ≤ 2 * poll)
    (hl : (arrived mid).length < d.need) :
    d.Silent poll (pre ++ [q]) mid ∧ d.run poll (pre ++ q :: mid) =
      { outstanding := true, last := q.1, rx := arrived mid, status := (d.run poll (pre ++ [q])).status } := by
  induction mid using List.reverseRecOn with
  | nil =>
    refine ⟨Silent_nil _, ?_⟩
    rw [uartRun_append]
    obtain ⟨h1, h2, h3, -⟩ := tick_asks h
    generalize (d.tick poll (d.run poll pre) q).1 = s at *
    cases s
    simp_all [arrived]
  | append_singleton mid t ih =>
    have hl' : (arrived mid).length + t.2.length < d.need := by
      rw [arrived_append] at hl
      simpa [arrived] using hl
    obtain ⟨i1, i2⟩ := ih (fun u hu => ht u (by simp [hu])) (by omega)
    have hq := ht t (by simp)
    have h2p := uartU32_of (x := 2 * poll) (by omega) (by omega)
    have et : d.tick poll (d.run poll (pre ++ q :: mid)) t =
        ({ outstanding := true, last := q.1, rx := arrived (mid ++ [t])
           status := (d.run poll (pre ++ [q])).status }, false) := by
      obtain ⟨s1, e, el, c⟩ := tick_eq (d := d) (poll := poll) (d.run poll (pre ++ q :: mid)) t
      rw [i2] at e el c ⊢
      have es : s1 = { outstanding := true, last := q.1, rx := arrived (mid ++ [t])
                       status := (d.run poll (pre ++ [q])).status } := by
        rcases c with ⟨c1, -⟩ | ⟨-, c1, -⟩ | ⟨-, -, rfl⟩
        · simp at c1
        · simp only at c1; omega
        · have ea : (arrived mid ++ t.2).take (d.need + 3) = arrived (mid ++ [t]) := by
            rw [List.take_of_length_le (by simp; omega), arrived_append]
            simp [arrived]
          simp only [ea]
          exact process_wait _ hl
      rw [e, es]
      simp [UartDriver.ask]
    refine ⟨Silent_concat i1 ?_, ?_⟩
    · unfold UartDriver.Asks
      rw [List.append_assoc]
      change ¬ (d.tick poll (d.run poll (pre ++ q :: mid)) t).2 = true
      rw [et]
      simp
    · have : pre ++ q :: (mid ++ [t]) = (pre ++ q :: mid) ++ [t] := by simp
      rw [this, uartRun_append, et]

/-- **C78**: an answer is used: if after a query the bytes arrive that answer it, until at most two poll
intervals later and not followed by three more, it is evaluated by the first call after its last byte. -/
theorem C78_used (hp : 0 ≤ poll) (hp' : poll < 2 ^ 30) (pre mid : List (ℕ × List ℕ)) (q t : ℕ × List ℕ)
    (h : d.Asks poll pre q) (ht : ∀ u ∈ mid ++ [t], elapsed q.1 u.1 ≤ 2 * poll)
    (hl : (arrived mid).length < d.need) (hl1 : d.need ≤ (arrived (mid ++ [t])).length)
    (hl2 : (arrived (mid ++ [t])).length < d.need + 3)
    (hh : (arrived (mid ++ [t])).head? = some d.header) :
    (d.run poll (pre ++ q :: mid ++ [t])).status =
      d.accept (arrived (mid ++ [t])) (d.run poll (pre ++ [q])).status := by
  obtain ⟨-, i2⟩ := uart_waiting hp hp' pre mid q h (fun u hu => ht u (by simp [hu])) hl
  have hq := ht t (by simp)
  have h2p := uartU32_of (x := 2 * poll) (by omega) (by omega)
  have ea : arrived mid ++ t.2 = arrived (mid ++ [t]) := by
    rw [arrived_append]; simp [arrived]
  rw [uartRun_append]
  obtain ⟨s1, e, el, c⟩ := tick_eq (d := d) (poll := poll) (d.run poll (pre ++ q :: mid)) t
  rw [e, ask_status]
  rw [i2] at c
  rcases c with ⟨c1, -⟩ | ⟨-, c1, -⟩ | ⟨-, -, rfl⟩
  · simp at c1
  · simp only at c1; omega
  · simp only [ea, List.take_of_length_le hl2.le]
    rw [process_accept]
    · exact hl1
    · exact hl2
    · simp [List.headD_eq_head?_getD, hh]

end

/-! ## The evaluation of answers -/

theorem bit_toNat (v k : ℕ) : (v >>> k) &&& 1 = (v.testBit k).toNat := by
  rw [Nat.and_one_is_mod, Nat.testBit_eq_decide_div_mod_eq, Nat.shiftRight_eq_div_pow]
  rcases Nat.mod_two_eq_zero_or_one (v / 2 ^ k) with h | h <;> simp [h]

theorem evenParity_eq (v : ℕ) : evenParity v = !xorBits v [0, 2, 4, 6, 8, 10, 12] := by
  unfold evenParity xorBits
  simp only [bit_toNat, List.foldr]
  generalize v.testBit 0 = a
  generalize v.testBit 2 = b
  generalize v.testBit 4 = c
  generalize v.testBit 6 = d
  generalize v.testBit 8 = e
  generalize v.testBit 10 = f
  generalize v.testBit 12 = g
  revert a b c d e f g
  decide

theorem oddParity_eq (v : ℕ) : oddParity v = !xorBits v [1, 3, 5, 7, 9, 11, 13] := by
  unfold oddParity
  rw [evenParity_eq]
  simp [xorBits, Nat.testBit_shiftRight]

theorem check_bit (v k : ℕ) : decide (v &&& 2 ^ k ≠ 0) = v.testBit k := by
  rw [Nat.and_two_pow]
  cases v.testBit k <;> simp

theorem word_bit_lo {lo hi k : ℕ} (_ : lo < 256) (hk : k < 8) :
    (lo ||| (hi <<< 8)).testBit k = lo.testBit k := by
  rw [Nat.testBit_or, Nat.testBit_shiftLeft]
  simp; omega

theorem word_bit_hi {lo hi k : ℕ} (h : lo < 256) (hk : 8 ≤ k) :
    (lo ||| (hi <<< 8)).testBit k = hi.testBit (k - 8) := by
  rw [Nat.testBit_or, Nat.testBit_shiftLeft, Nat.testBit_lt_two_pow (lt_of_lt_of_le h
    (by change 2 ^ 8 ≤ 2 ^ k; exact Nat.pow_le_pow_right (by norm_num) hk))]
  simp [hk]

theorem word_value {lo hi : ℕ} (h : lo < 256) :
    (lo ||| (hi <<< 8)) &&& 0x3fff = lo + 256 * (hi % 64) := by
  have : lo ||| (hi <<< 8) = hi * 256 + lo := by
    rw [Nat.or_comm, Nat.shiftLeft_eq]
    have := Nat.two_pow_add_eq_or_of_lt (i := 8) h hi
    rw [mul_comm hi, ← this]
  rw [this, show 0x3fff = 2 ^ 14 - 1 by rfl, Nat.and_two_pow_sub_one_eq_mod]
  omega

/-- The evaluation of an answer: the two check bits. -/
theorem cuiAccept_eq {a lo hi : ℕ} {rest : List ℕ} (h : lo < 256) (s : UartStatus) :
    cuiAccept (a :: lo :: hi :: rest) s =
      if hi.testBit 7 = (!(xor (xorBits hi [5, 3, 1]) (xorBits lo [7, 5, 3, 1]))) ∧
        hi.testBit 6 = (!(xor (xorBits hi [4, 2, 0]) (xorBits lo [6, 4, 2, 0]))) then
        { s with value := lo + 256 * (hi % 64), nonce := (s.nonce + 1) % 2 ^ 8, active := true }
      else { s with checksumErrors := (s.checksumErrors + 1) % 2 ^ 16 } := by
  unfold cuiAccept
  simp only [List.getD_cons_succ, List.getD_cons_zero, oddParity_eq, evenParity_eq, word_value h]
  rw [show 0x8000 = 2 ^ 15 by rfl, show 0x4000 = 2 ^ 14 by rfl, check_bit, check_bit,
    word_bit_hi h (by norm_num), word_bit_hi h (by norm_num)]
  have e1 : xorBits (lo ||| (hi <<< 8)) [1, 3, 5, 7, 9, 11, 13] =
      xor (xorBits hi [5, 3, 1]) (xorBits lo [7, 5, 3, 1]) := by
    simp only [xorBits, List.foldr, word_bit_lo h, word_bit_hi h, show 1 < 8 by norm_num,
      show 3 < 8 by norm_num, show 5 < 8 by norm_num, show 7 < 8 by norm_num, show 8 ≤ 9 by norm_num,
      show 8 ≤ 11 by norm_num, show 8 ≤ 13 by norm_num, Nat.reduceSub]
    generalize lo.testBit 1 = a
    generalize lo.testBit 3 = b
    generalize lo.testBit 5 = c
    generalize lo.testBit 7 = d
    generalize hi.testBit 1 = e
    generalize hi.testBit 3 = f
    generalize hi.testBit 5 = g
    revert a b c d e f g
    decide
  have e0 : xorBits (lo ||| (hi <<< 8)) [0, 2, 4, 6, 8, 10, 12] =
      xor (xorBits hi [4, 2, 0]) (xorBits lo [6, 4, 2, 0]) := by
    simp only [xorBits, List.foldr, word_bit_lo h, word_bit_hi h, show 0 < 8 by norm_num,
      show 2 < 8 by norm_num, show 4 < 8 by norm_num, show 6 < 8 by norm_num, show 8 ≤ 8 by norm_num,
      show 8 ≤ 10 by norm_num, show 8 ≤ 12 by norm_num, Nat.reduceSub]
    generalize lo.testBit 0 = a
    generalize lo.testBit 2 = b
    generalize lo.testBit 4 = c
    generalize lo.testBit 6 = d
    generalize hi.testBit 0 = e
    generalize hi.testBit 2 = f
    generalize hi.testBit 4 = g
    revert a b c d e f g
    decide
  rw [e1, e0]
  simp only [Nat.reduceSub]
  by_cases c1 : hi.testBit 7 = (!(xor (xorBits hi [5, 3, 1]) (xorBits lo [7, 5, 3, 1]))) <;>
    by_cases c2 : hi.testBit 6 = (!(xor (xorBits hi [4, 2, 0]) (xorBits lo [6, 4, 2, 0]))) <;>
    simp [c1, c2]

theorem xorBits_xor (a b : ℕ) (l : List ℕ) : xorBits (a ^^^ b) l = xor (xorBits a l) (xorBits b l) := by
  induction l with
  | nil => rfl
  | cons k l ih =>
    simp only [xorBits, List.foldr, Nat.testBit_xor] at ih ⊢
    rw [ih]
    generalize List.foldr _ _ _ = x
    generalize List.foldr _ _ _ = y
    generalize a.testBit k = p
    generalize b.testBit k = q
    revert p q x y
    decide

section

variable {poll : ℤ} {pre mid : List (ℕ × List ℕ)} {q t : ℕ × List ℕ} {addr v lo hi : ℕ}

/-- **C78**: the answer of an AMT21 to a query, received in any number of pieces within two poll
intervals, updates the position and the serial number, and nothing else. -/
theorem C78_cui_position (hp : 0 ≤ poll) (hp' : poll < 2 ^ 30)
    (h : (cuiAmt21 addr).Asks poll pre q) (ht : ∀ u ∈ mid ++ [t], elapsed q.1 u.1 ≤ 2 * poll)
    (hl : (arrived mid).length < 3) (ha : CuiAnswer v lo hi) (hb : arrived (mid ++ [t]) = [addr, lo, hi]) :
    ((cuiAmt21 addr).run poll (pre ++ q :: mid ++ [t])).status =
      { ((cuiAmt21 addr).run poll (pre ++ [q])).status with
        value := v, active := true
        nonce := (((cuiAmt21 addr).run poll (pre ++ [q])).status.nonce + 1) % 256 } := by
  rw [C78_used hp hp' pre mid q t h ht hl (by rw [hb]; exact le_refl 3) (by rw [hb]; exact (by decide : 3 < 6))
    (by rw [hb]; rfl), hb]
  change cuiAccept _ _ = _
  rw [cuiAccept_eq ha.lo_lt, if_pos ⟨ha.k1, ha.k0⟩, ← ha.position]
  norm_num

/-- **C78**: an answer with transmission errors (the bits of `el` and `eh` are inverted) is used if and
only if the number of errors is even both in the bits of odd and in those of even significance;
otherwise an error is counted and nothing else changes. -/
theorem C78_cui_errors {el eh : ℕ} (hp : 0 ≤ poll) (hp' : poll < 2 ^ 30)
    (h : (cuiAmt21 addr).Asks poll pre q) (ht : ∀ u ∈ mid ++ [t], elapsed q.1 u.1 ≤ 2 * poll)
    (hl : (arrived mid).length < 3) (ha : CuiAnswer v lo hi) (hel : el < 256)
    (hb : arrived (mid ++ [t]) = [addr, lo ^^^ el, hi ^^^ eh]) :
    ((cuiAmt21 addr).run poll (pre ++ q :: mid ++ [t])).status =
      if xor (xorBits eh [7, 5, 3, 1]) (xorBits el [7, 5, 3, 1]) = false ∧
        xor (xorBits eh [6, 4, 2, 0]) (xorBits el [6, 4, 2, 0]) = false then
        { ((cuiAmt21 addr).run poll (pre ++ [q])).status with
          value := (lo ^^^ el) + 256 * ((hi ^^^ eh) % 64), active := true
          nonce := (((cuiAmt21 addr).run poll (pre ++ [q])).status.nonce + 1) % 256 }
      else
        { ((cuiAmt21 addr).run poll (pre ++ [q])).status with
          checksumErrors :=
            (((cuiAmt21 addr).run poll (pre ++ [q])).status.checksumErrors + 1) % 65536 } := by
  rw [C78_used hp hp' pre mid q t h ht hl (by rw [hb]; exact le_refl 3) (by rw [hb]; exact (by decide : 3 < 6))
    (by rw [hb]; rfl), hb]
  change cuiAccept _ _ = _
  rw [cuiAccept_eq (Nat.xor_lt_two_pow (n := 8) ha.lo_lt hel)]
  refine if_congr ?_ rfl rfl
  simp only [xorBits_xor, Nat.testBit_xor]
  rw [ha.k1, ha.k0]
  have e1 : xorBits eh [7, 5, 3, 1] = xor (eh.testBit 7) (xorBits eh [5, 3, 1]) := rfl
  have e0 : xorBits eh [6, 4, 2, 0] = xor (eh.testBit 6) (xorBits eh [4, 2, 0]) := rfl
  rw [e1, e0]
  generalize eh.testBit 7 = x1
  generalize eh.testBit 6 = x2
  generalize xorBits eh [5, 3, 1] = x3
  generalize xorBits eh [4, 2, 0] = x4
  generalize xorBits el [7, 5, 3, 1] = x5
  generalize xorBits el [6, 4, 2, 0] = x6
  generalize xorBits hi [5, 3, 1] = x7
  generalize xorBits hi [4, 2, 0] = x8
  generalize xorBits lo [7, 5, 3, 1] = x9
  generalize xorBits lo [6, 4, 2, 0] = x10
  cases x1 <;> cases x3 <;> cases x5 <;> cases x7 <;> cases x9 <;>
    cases x2 <;> cases x4 <;> cases x6 <;> cases x8 <;> cases x10 <;> decide

/-- **C78**: a single wrong bit in an answer is always noticed. -/
theorem C78_cui_single_error {el eh k : ℕ} (hk : k < 8)
    (he : (el = 2 ^ k ∧ eh = 0) ∨ (el = 0 ∧ eh = 2 ^ k)) (hp : 0 ≤ poll) (hp' : poll < 2 ^ 30)
    (h : (cuiAmt21 addr).Asks poll pre q) (ht : ∀ u ∈ mid ++ [t], elapsed q.1 u.1 ≤ 2 * poll)
    (hl : (arrived mid).length < 3) (ha : CuiAnswer v lo hi)
    (hb : arrived (mid ++ [t]) = [addr, lo ^^^ el, hi ^^^ eh]) :
    ((cuiAmt21 addr).run poll (pre ++ q :: mid ++ [t])).status =
      { ((cuiAmt21 addr).run poll (pre ++ [q])).status with
        checksumErrors :=
          (((cuiAmt21 addr).run poll (pre ++ [q])).status.checksumErrors + 1) % 65536 } := by
  have hel : el < 256 := by
    rcases he with ⟨rfl, -⟩ | ⟨rfl, -⟩
    · exact Nat.pow_lt_pow_right (by norm_num) hk
    · norm_num
  rw [C78_cui_errors hp hp' h ht hl ha hel hb, if_neg]
  rcases he with ⟨rfl, rfl⟩ | ⟨rfl, rfl⟩ <;> interval_cases k <;> decide

/-- **C78**: the answer of an AksIM-2 (`d`, three bytes of position and flags, two bytes of status): the
position are the upper 22 bits, the position is used only if the error flag (active low) is set. -/
theorem C78_aksim {b1 b2 b3 b4 b5 : ℕ} (hp : 0 ≤ poll) (hp' : poll < 2 ^ 30)
    (h : aksim2.Asks poll pre q) (ht : ∀ u ∈ mid ++ [t], elapsed q.1 u.1 ≤ 2 * poll)
    (hl : (arrived mid).length < 6) (hb2 : b2 < 256) (hb3 : b3 < 256) (hb5 : b5 < 256)
    (hb : arrived (mid ++ [t]) = [100, b1, b2, b3, b4, b5]) :
    (aksim2.run poll (pre ++ q :: mid ++ [t])).status =
      { (aksim2.run poll (pre ++ [q])).status with
        value := (b1 * 65536 + b2 * 256 + b3) / 4
        err := b3.testBit 1, warn := b3.testBit 0, akStatus := b4 * 256 + b5
        nonce := ((aksim2.run poll (pre ++ [q])).status.nonce + 1) % 256
        active := b3.testBit 1 } := by
  rw [C78_used hp hp' pre mid q t h ht hl (by rw [hb]; exact le_refl 6) (by rw [hb]; exact (by decide : 6 < 9))
    (by rw [hb]; rfl), hb]
  change aksimAccept _ _ = _
  have or8 : ∀ a b : ℕ, b < 256 → (a <<< 8) ||| b = a * 256 + b := by
    intro a b hb
    rw [Nat.shiftLeft_eq]
    have := Nat.two_pow_add_eq_or_of_lt (i := 8) hb a
    rw [mul_comm a, ← this]
  have or16 : (b1 <<< 16 ||| b2 <<< 8) ||| b3 = b1 * 65536 + b2 * 256 + b3 := by
    rw [show b1 <<< 16 = (b1 <<< 8) <<< 8 by simp [Nat.shiftLeft_eq]; ring, ← Nat.shiftLeft_or_distrib,
      or8 b1 b2 hb2, or8 _ b3 hb3]
    ring
  unfold aksimAccept
  simp only [List.getD_cons_succ, List.getD_cons_zero, Nat.shiftLeft_zero, or8 _ _ hb5, or16,
    Nat.shiftRight_eq_div_pow]
  have f1 : decide (b3 &&& 2 ≠ 0) = b3.testBit 1 := check_bit b3 1
  have f0 : decide (b3 &&& 1 ≠ 0) = b3.testBit 0 := check_bit b3 0
  simp only [f1, f0, Nat.reducePow]

end

/-- The hypotheses of the theorems hold: a position is received in two pieces, and the next query is sent
100 us after the first. -/
example : ∃ pre q mid t v lo hi, (cuiAmt21 0x54).Asks 100 pre q ∧
    (∀ u ∈ mid ++ [t], elapsed q.1 u.1 ≤ 2 * (100 : ℤ)) ∧ (arrived mid).length < 3 ∧ CuiAnswer v lo hi ∧
    arrived (mid ++ [t]) = [0x54, lo, hi] ∧
    ((cuiAmt21 0x54).run 100 (pre ++ q :: mid ++ [t])).status.value = 0x1234 ∧
    (cuiAmt21 0x54).Asks 100 (pre ++ q :: mid ++ [t]) (200, []) := by
  refine ⟨[], (100, []), [(130, [0x54, 0x34])], (160, [0x92]), 0x1234, 0x34, 0x92, by unfold UartDriver.Asks; decide,
    ?_, by decide, ?_, by decide, by decide, by unfold UartDriver.Asks; decide⟩
  · intro u hu
    simp at hu
    rcases hu with rfl | rfl <;> decide
  · constructor <;> decide

/-- The clock may wrap around between query and answer. -/
example : elapsed (2 ^ 32 - 10) 30 = 40 := by decide

/-- **C78**: an answer that arrives later than two poll intervals after its query is taken for the answer to
the next one.  The encoder answers both queries with its position `0x1402`; the last byte of the first
answer is late, it happens to be the address, and the position `0x0254` is reported.  The check bits do
not help, as they are the same with the two bytes exchanged. -/
theorem C78_late_refuted : ∃ (ts : List (ℕ × List ℕ)) (q1 q2 : ℕ × List ℕ) (a b c : List (ℕ × List ℕ)),
    CuiAnswer 0x1402 0x02 0x54 ∧ ts = a ++ q1 :: b ++ q2 :: c ∧
    (cuiAmt21 0x54).Asks 100 a q1 ∧ (cuiAmt21 0x54).Asks 100 (a ++ q1 :: b) q2 ∧
    (cuiAmt21 0x54).Silent 100 (a ++ [q1]) b ∧ (cuiAmt21 0x54).Silent 100 (a ++ q1 :: b ++ [q2]) c ∧
    arrived ts <+: [0x54, 0x02, 0x54] ++ [0x54, 0x02, 0x54] ∧
    ((cuiAmt21 0x54).run 100 ts).status.active = true ∧
    ((cuiAmt21 0x54).run 100 ts).status.value = 0x0254 := by
  refine ⟨[(100, []), (301, [0x54, 0x02]), (350, [0x54, 0x54, 0x02])], (100, []), (301, [0x54, 0x02]), [], [],
    [(350, [0x54, 0x54, 0x02])], by constructor <;> decide, rfl, by unfold UartDriver.Asks; decide,
    by unfold UartDriver.Asks; decide, Silent_nil _, ?_, by decide, by decide, by decide⟩
  refine Silent_concat (mid := []) (Silent_nil _) ?_
  unfold UartDriver.Asks
  decide

/-- **C78**: with a poll interval of 0 the answer is never used unless it is complete within the
microsecond of the query: every later call discards it. -/
theorem C78_poll_zero (d : UartDriver) (s : UartState) (t : ℕ × List ℕ) (h : elapsed s.last t.1 ≠ 0) :
    (d.tick 0 s t).1.status = s.status :=
  (tick_late (poll := 0) (by unfold uartU32; simp; omega) (by unfold uartU32; simp)).2

end Verif.Fw
