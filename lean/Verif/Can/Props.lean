import Verif.Can.Model
import Mathlib.Tactic.Ring

/-! # Properties C15, C16, C17 -/

namespace Verif.Can

open Verif

namespace Spec

/-- docs/reference.md:439-447 with the 13 bit prefix above: the identifier of a
frame from `source` to `destination`. -/
def canId (pre : Nat) (reply : Bool) (source destination : Nat) : Nat :=
  pre * 2 ^ 16 + (if reply then 2 ^ 15 else 0) + source * 2 ^ 8 + destination

/-- The data lengths a CAN-FD frame can have. -/
def Legal (n : Nat) : Prop := n ≤ 8 ∨ n = 12 ∨ n = 16 ∨ n = 20 ∨ n = 24 ∨ n = 32 ∨ n = 48 ∨ n = 64

/-- `out` is `payload` sent with the smallest legal size and NOP padding. -/
def PaddedBy (pad : UInt8) (payload out : Bytes) : Prop :=
  Legal out.length ∧ (∀ n, Legal n → payload.length ≤ n → out.length ≤ n) ∧
  ∃ k, out = payload ++ List.replicate k pad

def IsHex (c : UInt8) : Prop :=
  (48 ≤ c.toNat ∧ c.toNat ≤ 57) ∨ (65 ≤ c.toNat ∧ c.toNat ≤ 70)

/-- Big-endian value of hex digits. -/
def hexValue (text : Bytes) (n : Nat) : Prop :=
  ∃ ds : List Nat, text.map nybble = ds.map some ∧ n = ds.foldl (fun a d => a * 16 + d) 0

end Spec

open Spec

/-! ## Identifiers -/

theorem or_shift (a b k : Nat) (h : a < 2 ^ k) : a ||| (b <<< k) = b * 2 ^ k + a := by
  rw [Nat.or_comm, ← Nat.shiftLeft_add_eq_or_of_lt h, Nat.shiftLeft_eq]

theorem cppId_eq (d s : Nat) (r : Bool) (p : Nat) (hd : d < 128) (hs : s < 128) :
    cppId d s r p = canId p r s d := by
  unfold cppId canId
  rw [or_shift d s 8 (by omega)]
  have h1 : (s * 2 ^ 8 + d) ||| (if r then 0x8000 else 0) = (if r then 2 ^ 15 else 0) + s * 2 ^ 8 + d := by
    cases r
    · simp
    · have := or_shift (s * 2 ^ 8 + d) 1 15 (by omega)
      simpa [Nat.add_assoc] using this
  rw [h1, or_shift _ p 16 (by split <;> omega)]
  omega

theorem busId_eq (c : Command) (hr : c.raw = false) (hd : c.destination < 128) :
    busId c = canId c.canPrefix c.replyRequired 0 c.destination := by
  have := cppId_eq c.destination 0 c.replyRequired c.canPrefix hd (by omega)
  unfold cppId at this
  unfold busId
  rw [hr, ← this]
  simp

/-- C15: the identifier the Python transports use is the documented one for
source 0. -/
theorem C15_python_id (c : Command) (hr : c.raw = false) (hd : c.destination < 128) :
    busId c = canId c.canPrefix c.replyRequired 0 c.destination ∧
    (pythonCanFrame c).id = canId c.canPrefix c.replyRequired 0 c.destination := by
  have h := busId_eq c hr hd
  refine ⟨h, ?_⟩
  rw [← h]
  simp [pythonCanFrame, busId, hr]

/-- C15: the `source` of a command is not sent by the Python transports. -/
theorem C15_python_source_refuted :
    ∃ c : Command, c.source = 5 ∧ busId c ≠ canId c.canPrefix c.replyRequired c.source c.destination ∧
      busId c = busId { c with source := 0 } :=
  ⟨{ source := 5 }, rfl, by decide, by decide⟩

/-- C15: different combinations of prefix, reply flag, source and destination
have different identifiers, all within 29 bits. -/
theorem C15_id_unambiguous (p p' : Nat) (r r' : Bool) (s s' d d' : Nat)
    (hs : s < 128) (hs' : s' < 128) (hd : d < 128) (hd' : d' < 128)
    (h : canId p r s d = canId p' r' s' d') : p = p' ∧ r = r' ∧ s = s' ∧ d = d' := by
  unfold canId at h
  cases r <;> cases r' <;> simp at h ⊢ <;> omega

theorem C15_id_range (p : Nat) (r : Bool) (s d : Nat) (hp : p < 2 ^ 13) (hs : s < 128)
    (hd : d < 128) : canId p r s d < 2 ^ 29 := by
  unfold canId
  split <;> omega

/-- C15: the C++ client builds the documented identifier, from source 0. -/
theorem C15_cpp_id (d : Nat) (r : Bool) (p : Nat) (hd : d < 128) :
    cppId d 0 r p = canId p r 0 d := cppId_eq d 0 r p hd (by omega)

theorem and_mask (n k : Nat) : n &&& (2 ^ k - 1) = n % 2 ^ k := Nat.and_two_pow_sub_one_eq_mod n k

/-- C15: the controller sees the destination, and the source with the reply
flag as its highest bit. -/
theorem C15_controller_decodes (p : Nat) (r : Bool) (s d : Nat) (hs : s < 128) (hd : d < 128) :
    fwDecode (canId p r s d) = (d, (if r then 128 else 0) + s) := by
  unfold fwDecode canId
  rw [show (0xff : Nat) = 2 ^ 8 - 1 by norm_num, and_mask, and_mask, Nat.shiftRight_eq_div_pow]
  cases r <;> simp <;> omega

theorem fwFrame_id (source destination p : Nat) (data : Bytes) (hs : source < 128)
    (hd : destination < 128) : (fwFrame source destination p data).id =
      canId p false source destination := by
  unfold fwFrame
  simp only
  rw [show (0xff : Nat) = 2 ^ 8 - 1 by norm_num, and_mask, and_mask,
    Nat.mod_eq_of_lt (by omega : source < 2 ^ 8), Nat.mod_eq_of_lt (by omega : destination < 2 ^ 8)]
  have := cppId_eq destination source false p hd hs
  unfold cppId at this
  rw [← this]
  simp [Nat.or_comm]

/-- C15: the reply of controller `id` to a request of source `s` is decoded by
the client as coming from `id`, going to `s`, with the same prefix. -/
theorem C15_reply_decodes (id s p : Nat) (data : Bytes) (hi : id < 128) (hs : s < 128) :
    cppDecode (fwFrame id s p data).id = (s, id, p) := by
  rw [fwFrame_id id s p data hi hs]
  unfold cppDecode canId
  rw [show (0x7f : Nat) = 2 ^ 7 - 1 by norm_num, and_mask, and_mask,
    Nat.shiftRight_eq_div_pow, Nat.shiftRight_eq_div_pow]
  simp
  omega

/-- C15: the bootloader replies in the same way as long as the prefix is 0. -/
theorem C15_bootloader_reply_decodes (id s : Nat) (data : Bytes) (hi : id < 128) (hs : s < 128)
    (hl : data.length ≤ 64) :
    ∃ f, bootFrame id s data = some f ∧ cppDecode f.id = (s, id, 0) := by
  have hd : ∀ n ≤ 64, (bootRoundUpDlc n).isSome = true := by decide
  obtain ⟨dlc, hdlc⟩ := Option.isSome_iff_exists.mp (hd _ hl)
  refine ⟨_, by simp [bootFrame, hdlc]; rfl, ?_⟩
  have h := C15_reply_decodes id s 0 data hi hs
  rw [fwFrame_id id s 0 data hi hs] at h
  have h2 : (id <<< 8 ||| s) = canId 0 false id s := by
    have := cppId_eq s id false 0 hs hi
    unfold cppId at this
    rw [← this]
    simp [Nat.or_comm]
  simp only [h2]
  exact h

/-- C15: the bootloader does not use the configured prefix. -/
theorem C15_bootloader_prefix_refuted :
    ∃ (id s p : Nat) (f : BusFrame), bootFrame id s [] = some f ∧ p < 2 ^ 13 ∧
      cppDecode f.id ≠ (s, id, p) :=
  ⟨1, 0, 1, { id := 256, extended := false, data := [] }, by decide, by decide, by decide⟩

/-- lib/cpp/mjbots/moteus/moteus.h:576-578, 939-941: a reply belongs to a
request of a controller object with these options. -/
def cppMatches (id source pre : Nat) (f : BusFrame) : Bool :=
  cppDecode f.id == (source, id, pre)

/-- What the controller `id` sends as reply to a frame with this identifier
(fw/fdcan_micro_server.h:35-73; the server of mjlib answers to the low seven
bits of the source). -/
def replyTo (ownId pre reqId : Nat) (data : Bytes) : BusFrame :=
  fwFrame ownId ((fwDecode reqId).2 % 128) pre data

/-- C15: a C++ client that uses source 0 recognises the reply to its own
request, and no reply of another controller. -/
theorem C15_cpp_reply_matched (id other p : Nat) (data : Bytes) (hi : id < 128) (ho : other < 128) :
    cppMatches id 0 p (replyTo other p (cppId id 0 true p) data) = decide (other = id) := by
  unfold cppMatches replyTo
  rw [C15_cpp_id id true p hi, C15_controller_decodes p true 0 id (by omega) hi]
  simp only [if_true]
  rw [C15_reply_decodes other _ p data ho (by omega)]
  by_cases h : other = id
  · subst h; simp
  · have : ¬ (other == id) = true := by simpa using h
    simp [h]

/-- C15: with a non-zero source option the C++ client rejects the reply to its
own request. -/
theorem C15_cpp_source_refuted :
    ∃ id source p, id < 128 ∧ source < 128 ∧
      cppMatches id source p (replyTo id p (cppId id 0 true p) []) = false :=
  ⟨1, 2, 0, by decide, by decide, by decide⟩

/-- C15: an identifier that needs more than 11 bits is always sent in an
extended frame. -/
theorem C15_extended (c : Command) (source destination p : Nat) (data : Bytes) :
    ((pythonCanFrame c).extended = false → (pythonCanFrame c).id < 2 ^ 11) ∧
    ((fwFrame source destination p data).extended = decide
      (2 ^ 11 ≤ (fwFrame source destination p data).id)) ∧
    (∀ f, bootFrame source destination data = some f →
      f.extended = decide (2 ^ 11 ≤ f.id)) := by
  refine ⟨?_, rfl, ?_⟩
  · intro h
    simp only [pythonCanFrame, decide_eq_false_iff_not, not_le] at h ⊢
    omega
  · intro f hf
    unfold bootFrame at hf
    split at hf
    · simp at hf
    · simp only [Option.some.injEq] at hf; subst hf; rfl

/-- C15: a frame that asks for a reply passes exactly the receive filter for its
prefix (a controller has this filter once a prefix other than 0 was configured,
`C110_filter_partial`; until then it receives everything, `C110_filter_refuted`). -/
theorem C15_filter_reply (c : Command) (p : Nat) (hd : c.destination < 128) (hr : c.raw = false)
    (hq : c.replyRequired = true) (hc : c.canPrefix < 2 ^ 13) (hp : p < 2 ^ 13) :
    fwAccepts p (pythonCanFrame c) = decide (p = c.canPrefix) := by
  have h := (C15_python_id c hr hd).2
  have hext : (pythonCanFrame c).extended = true := by
    have : (pythonCanFrame c).extended = decide (0x7ff ≤ (pythonCanFrame c).id) := rfl
    rw [this, h, hq]
    unfold canId
    simp
    omega
  unfold fwAccepts
  rw [hext, h]
  have mask : ∀ n q, n < 2 ^ 16 → (q * 2 ^ 16 + n) &&& 0x1fff0000 = (q % 2 ^ 13) * 2 ^ 16 := by
    intro n q hn
    apply Nat.eq_of_testBit_eq
    intro i
    have e1 : (0x1fff0000 : Nat) = (2 ^ 13 - 1) * 2 ^ 16 := by norm_num
    rw [e1, Nat.testBit_and, Nat.testBit_mul_two_pow, Nat.testBit_mul_two_pow,
      Nat.testBit_two_pow_sub_one, Nat.testBit_mod_two_pow, Nat.mul_comm q]
    rw [Nat.testBit_two_pow_mul_add _ hn]
    by_cases h : i < 16
    · have : ¬ 16 ≤ i := by omega
      simp [h, this]
    · have : 16 ≤ i := by omega
      simp [h, this, Bool.and_comm]
  have m1 : canId c.canPrefix c.replyRequired 0 c.destination =
      c.canPrefix * 2 ^ 16 + (2 ^ 15 + c.destination) := by
    unfold canId; rw [hq]; simp; omega
  rw [m1, mask _ _ (by omega)]
  have m2 : p <<< 16 = p * 2 ^ 16 + 0 := by rw [Nat.shiftLeft_eq, Nat.add_zero]
  rw [m2, mask _ _ (by omega), Nat.mod_eq_of_lt hc, Nat.mod_eq_of_lt hp]
  by_cases hpc : p = c.canPrefix
  · subst hpc; simp
  · have : ¬ (c.canPrefix * 2 ^ 16 = p * 2 ^ 16) := by omega
    simp only [if_true, hpc, decide_false, beq_eq_false_iff_ne, ne_eq]
    exact this

/-- C15: a frame without reply request and prefix 0 is sent as standard frame
and accepted by controllers with any other prefix. -/
theorem C15_filter_refuted :
    ∃ (c : Command) (p : Nat), c.canPrefix = 0 ∧ p = 3 ∧ fwAccepts p (pythonCanFrame c) = true :=
  ⟨{}, 3, rfl, rfl, by decide⟩

/-- C15: the frame formats chosen by python-can and by the controller differ
for the identifier 0x7ff. -/
example : (pythonCanFrame { destination := 0x7f, raw := false, canPrefix := 0 }).extended = false := by
  decide

example : (C15_id_unambiguous 3 3 true true 4 4 5 5 (by decide) (by decide) (by decide) (by decide)
    rfl).1 = (rfl : (3 : Nat) = 3) := rfl
example : fwAccepts 1 (pythonCanFrame { replyRequired := true, canPrefix := 1 }) = true ∧
    fwAccepts 2 (pythonCanFrame { replyRequired := true, canPrefix := 1 }) = false := by decide

/-! ## Hex -/

theorem nybble_hexDigit (u : Bool) (d : Nat) (h : d < 16) : nybble (hexDigit u d) = some d := by
  have : ∀ u : Bool, ∀ d < 16, nybble (hexDigit u d) = some d := by decide
  exact this u d h

theorem pyIntHex_pair (b : UInt8) :
    pyIntHex [hexDigit true (b.toNat / 16), hexDigit true (b.toNat % 16)] = some (b.toNat : Int) := by
  have : ∀ b < 256, pyIntHex [hexDigit true (b / 16), hexDigit true (b % 16)] = some (b : Int) := by
    decide +kernel
  exact this _ b.toNat_lt

theorem dehexify_hexify (d : Bytes) : dehexify (hexify d) = some d := by
  induction d with
  | nil => rfl
  | cons b d ih =>
    simp only [hexify, List.flatMap_cons, hexByte, List.cons_append, List.nil_append] at ih ⊢
    rw [dehexify, pyIntHex_pair]
    have := b.toNat_lt
    simp only
    rw [if_pos ⟨by omega, by omega⟩, ih]
    simp

/-- C16: hex text parsed back is the payload, whatever its length. -/
theorem C16_round_trip (d : Bytes) : dehexify (hexify d) = some d := dehexify_hexify d

/-- C16: the text consists of two hex digits per byte: no separator, no line
ending. -/
theorem C16_one_token (d : Bytes) :
    (hexify d).length = 2 * d.length ∧ ∀ c ∈ hexify d, IsHex c := by
  constructor
  · induction d with
    | nil => rfl
    | cons b d ih =>
      simp only [hexify, List.flatMap_cons, hexByte, List.length_append, List.length_cons] at ih ⊢
      simp [ih]; omega
  · intro c hc
    simp only [hexify, List.mem_flatMap] at hc
    obtain ⟨b, _, hb⟩ := hc
    have key : ∀ d < 16, (48 ≤ (hexDigit true d).toNat ∧ (hexDigit true d).toNat ≤ 57) ∨
        (65 ≤ (hexDigit true d).toNat ∧ (hexDigit true d).toNat ≤ 70) := by decide
    have hlt := b.toNat_lt
    simp only [hexByte, List.mem_cons, List.not_mem_nil, or_false] at hb
    rcases hb with rfl | rfl
    · exact key _ (by omega)
    · exact key _ (by omega)

/-- C16: different payloads have different texts. -/
theorem C16_injective (d d' : Bytes) (h : hexify d = hexify d') : d = d' := by
  have h1 := dehexify_hexify d
  rw [h, dehexify_hexify] at h1
  simpa using h1.symm

theorem parseHexBytes_hexify (d : Bytes) : parseHexBytes (hexify d) = d := by
  induction d with
  | nil => rfl
  | cons b d ih =>
    simp only [hexify, List.flatMap_cons, hexByte, List.cons_append, List.nil_append] at ih ⊢
    have hlt := b.toNat_lt
    rw [parseHexBytes, ih, parseHexByte, nybble_hexDigit _ _ (by omega), nybble_hexDigit _ _ (by omega)]
    simp only [List.cons.injEq, and_true]
    rw [show b.toNat / 16 * 16 + b.toNat % 16 = b.toNat by omega]
    simp

/-- C16: the C++ client reads the same bytes, for frames of at most 64 bytes. -/
theorem C16_cpp_reads (d : Bytes) (h : d.length ≤ 64) : parseCanData (hexify d) = d := by
  unfold parseCanData
  rw [List.take_of_length_le (by rw [(C16_one_token d).1]; omega), parseHexBytes_hexify]

/-- C16: the bootloader reads each pair of digits as the byte. -/
theorem C16_bootloader_reads (b : UInt8) : hexToI (hexByte true b) = b.toNat := by
  have : ∀ b < 256, hexToI (hexByte true (UInt8.ofNat b)) = b := by decide +kernel
  have h := this b.toNat b.toNat_lt
  simpa using h

theorem hexToI_append (a b : Bytes) :
    hexToI (a ++ b) = b.foldl (fun acc c => (acc * 16 + (nybble c).getD 0) % 2 ^ 32) (hexToI a) := by
  unfold hexToI; rw [List.foldl_append]

theorem hexToI_hexDigits (n : Nat) (h : n < 2 ^ 32) : hexToI (hexDigits n) = n := by
  induction n using Nat.strong_induction_on with
  | _ n ih =>
    unfold hexDigits
    split
    · next hn =>
      simp only [hexToI, List.foldl_cons, List.foldl_nil]
      rw [nybble_hexDigit _ _ hn]; simp; omega
    · next hn =>
      rw [hexToI_append, ih (n / 16) (by omega) (by omega)]
      simp only [List.foldl_cons, List.foldl_nil]
      rw [nybble_hexDigit _ _ (by omega)]
      simp only [Option.getD_some]
      omega

theorem hexToI_zeros (k : Nat) (t : Bytes) : hexToI (List.replicate k 48 ++ t) = hexToI t := by
  induction k with
  | zero => rfl
  | succ k ih =>
    rw [List.replicate_succ, List.cons_append]
    have : hexToI (48 :: (List.replicate k 48 ++ t)) = hexToI (List.replicate k 48 ++ t) := by
      unfold hexToI
      rw [List.foldl_cons]
      rfl
    rw [this, ih]

/-- C16: a 32 bit number printed by the host (`{:04x}`) is read back by the
bootloader's parser. -/
theorem C16_address_text (n : Nat) (h : n < 2 ^ 32) : hexToI (hex04 n) = n := by
  unfold hex04
  rw [hexToI_zeros, hexToI_hexDigits n h]

/-- Characters of `hexDigits` are digits, not white space, sign, underscore or
`x`. -/
theorem hexDigits_nybbles (n : Nat) :
    ∃ ds : List Nat, hexDigits n = ds.map (hexDigit false) ∧ (∀ d ∈ ds, d < 16) ∧ ds ≠ [] ∧
      n = ds.foldl (fun a d => a * 16 + d) 0 := by
  induction n using Nat.strong_induction_on with
  | _ n ih =>
    unfold hexDigits
    split
    · next hn => exact ⟨[n], by simp, by simpa using hn, by simp, by simp⟩
    · next hn =>
      obtain ⟨ds, h1, h2, h3, h4⟩ := ih (n / 16) (by omega)
      refine ⟨ds ++ [n % 16], by simp [h1], ?_, by simp, ?_⟩
      · intro d hd
        rcases List.mem_append.mp hd with h | h
        · exact h2 d h
        · simp at h; omega
      · rw [List.foldl_append, ← h4]; simp; omega

theorem pyDigits_digits {u : Bool} (ds : List Nat) (h : ∀ d ∈ ds, d < 16) (prev : Bool) (acc : Nat)
    (hne : ds ≠ [] ∨ prev = true) :
    pyDigits prev acc (ds.map (hexDigit u)) = some (ds.foldl (fun a d => a * 16 + d) acc) := by
  induction ds generalizing prev acc with
  | nil =>
    have : prev = true := by rcases hne with h | h; exact absurd rfl h; exact h
    simp [pyDigits, this]
  | cons d ds ih =>
    have hd : d < 16 := h d (by simp)
    have hu : ∀ d < 16, hexDigit u d ≠ 95 :=
      (by decide : ∀ u, ∀ d < 16, hexDigit u d ≠ 95) u
    simp only [List.map_cons, pyDigits, hu d hd, if_false, nybble_hexDigit _ d hd]
    rw [ih (fun x hx => h x (by simp [hx])) true _ (Or.inr rfl)]
    simp

theorem pyIntHex_digits {u : Bool} (ds : List Nat) (h : ∀ d ∈ ds, d < 16) (hne : ds ≠ []) :
    pyIntHex (ds.map (hexDigit u)) = some ((ds.foldl (fun a d => a * 16 + d) 0 : Nat) : Int) := by
  have nospace : ∀ d < 16, isSpace (hexDigit u d) = false :=
    (by decide : ∀ u, ∀ d < 16, isSpace (hexDigit u d) = false) u
  have nosign : ∀ d < 16, hexDigit u d ≠ 45 ∧ hexDigit u d ≠ 43 ∧ hexDigit u d ≠ 120 ∧
    hexDigit u d ≠ 88 :=
    (by decide : ∀ u, ∀ d < 16, hexDigit u d ≠ 45 ∧ hexDigit u d ≠ 43 ∧ hexDigit u d ≠ 120 ∧
      hexDigit u d ≠ 88) u
  have strip : ∀ l : Bytes, (∀ c ∈ l, isSpace c = false) →
      ((l.dropWhile isSpace).reverse.dropWhile isSpace).reverse = l := by
    intro l hl
    have drop : ∀ l : Bytes, (∀ c ∈ l, isSpace c = false) → l.dropWhile isSpace = l := by
      intro l hl
      cases l with
      | nil => rfl
      | cons c l => simp [List.dropWhile, hl c (by simp)]
    rw [drop l hl, drop _ (by simpa using hl), List.reverse_reverse]
  unfold pyIntHex
  rw [strip]
  swap
  · intro c hc
    simp only [List.mem_map] at hc
    obtain ⟨d, hd, rfl⟩ := hc
    exact nospace d (h d hd)
  cases ds with
  | nil => exact absurd rfl hne
  | cons d ds =>
    obtain ⟨n1, n2, _, _⟩ := nosign d (h d (by simp))
    have e1 : pySign ((d :: ds).map (hexDigit u)) =
        (false, (d :: ds).map (hexDigit u)) := by
      rw [List.map_cons]
      unfold pySign
      split
      · next heq => simp only [List.cons.injEq] at heq; exact absurd heq.1 n1
      · next heq => simp only [List.cons.injEq] at heq; exact absurd heq.1 n2
      · rfl
    simp only [e1]
    have e2 : pyPrefix ((d :: ds).map (hexDigit u)) = (d :: ds).map (hexDigit u) := by
      unfold pyPrefix
      cases ds with
      | nil =>
        rw [List.map_cons, List.map_nil]
        split
        · next heq => simp at heq
        · rfl
      | cons d2 ds =>
        obtain ⟨_, _, n3, n4⟩ := nosign d2 (h d2 (by simp))
        rw [List.map_cons, List.map_cons]
        split
        · next x s heq =>
          simp only [List.cons.injEq] at heq
          obtain ⟨h1, rfl, rfl⟩ := heq
          rw [if_neg (by simp [n3, n4]), h1]
        · rfl
    rw [e2, pyDigits_digits _ h false 0 (Or.inl (by simp))]
    simp

/-- C16: an identifier printed in hex is read back by the Python client. -/
theorem C16_identifier_text (n : Nat) :
    pyIntHex (hexDigits n) = some (n : Int) ∧ pyIntHex (hex04 n) = some (n : Int) := by
  obtain ⟨ds, h1, h2, h3, h4⟩ := hexDigits_nybbles n
  constructor
  · rw [h1, pyIntHex_digits ds h2 h3, ← h4]
  · unfold hex04
    generalize 4 - (hexDigits n).length = k
    have : List.replicate k (48 : UInt8) ++ hexDigits n =
        (List.replicate k 0 ++ ds).map (hexDigit false) := by
      rw [List.map_append, List.map_replicate, h1]; rfl
    rw [this, pyIntHex_digits _ _ (by simp [h3])]
    · rw [List.foldl_append]
      have : ∀ k, (List.replicate k 0).foldl (fun a d : Nat => a * 16 + d) 0 = 0 := by
        intro k; induction k with
        | zero => rfl
        | succ k ih => rw [List.replicate_succ, List.foldl_cons]; exact ih
      rw [this, ← h4]
    · intro d hd
      rcases List.mem_append.mp hd with h | h
      · rw [List.mem_replicate] at h; omega
      · exact h2 d h

theorem splitSpace_nospace (t : Bytes) (h : 32 ∉ t) : splitSpace t = [t] := by
  induction t with
  | nil => rfl
  | cons c t ih =>
    simp only [List.mem_cons, not_or] at h
    rw [splitSpace, if_neg (fun e => h.1 e.symm), ih h.2]

theorem splitSpace_cons (t rest : Bytes) (h : 32 ∉ t) :
    splitSpace (t ++ 32 :: rest) = t :: splitSpace rest := by
  induction t with
  | nil => simp [splitSpace]
  | cons c t ih =>
    simp only [List.mem_cons, not_or] at h
    rw [List.cons_append, splitSpace, if_neg (fun e => h.1 e.symm), ih h.2]

theorem hex_no_space (d : Bytes) : (32 : UInt8) ∉ hexify d := by
  intro h
  rcases (C16_one_token d).2 32 h with h | h <;> simp at h

theorem hexDigits_no_space (n : Nat) : (32 : UInt8) ∉ hexDigits n := by
  obtain ⟨ds, h1, h2, _⟩ := hexDigits_nybbles n
  rw [h1]
  intro h
  obtain ⟨d, hd, he⟩ := List.mem_map.mp h
  have : ∀ d < 16, hexDigit false d ≠ 32 := by decide
  exact this d (h2 d hd) he

/-- C16: a received frame printed as `rcv <id> <data> <flags>` is read back
with its identifier and data. -/
theorem C16_received_line (id : Nat) (data : Bytes) (flags : Bytes) :
    parseRcv ([114, 99, 118, 32] ++ hexDigits id ++ 32 :: (hexify data ++ 32 :: flags)) =
      some ((id : Int), data) := by
  unfold parseRcv
  have h1 : splitSpace ([114, 99, 118, 32] ++ hexDigits id ++ 32 :: (hexify data ++ 32 :: flags)) =
      [114, 99, 118] :: hexDigits id :: hexify data :: splitSpace flags := by
    rw [List.append_assoc]
    have := splitSpace_cons [114, 99, 118] (hexDigits id ++ 32 :: (hexify data ++ 32 :: flags))
      (by decide)
    simp only [List.cons_append, List.nil_append] at this ⊢
    rw [this, splitSpace_cons _ _ (hexDigits_no_space id), splitSpace_cons _ _ (hex_no_space data)]
  rw [h1]
  simp only [dehexify_hexify, (C16_identifier_text id).1]

/-- Without a flag the line ending becomes part of the data token and reading
raises. -/
theorem C16_line_without_flags :
    parseRcv ([114, 99, 118, 32] ++ hexDigits 256 ++ 32 :: (hexify [1, 2] ++ [10])) = none := by
  decide +kernel

example : hexify [0x00, 0xab, 0x7f] = "00AB7F".toUTF8.toList := by decide +kernel

/-! ## Padding -/

theorem replicate_hex (k : Nat) : (List.replicate k ([53, 48] : Bytes)).flatten =
    hexify (List.replicate k 0x50) := by
  induction k with
  | zero => rfl
  | succ k ih =>
    rw [List.replicate_succ, List.flatten_cons, ih, List.replicate_succ]
    rfl

theorem hex04_no_space (n : Nat) : (32 : UInt8) ∉ hex04 n := by
  unfold hex04
  intro h
  rcases List.mem_append.mp h with h | h
  · rw [List.mem_replicate] at h; exact absurd h.2 (by decide)
  · exact hexDigits_no_space n h

/-- C16 / C17: the command line given to the adapter has exactly the tokens
`can`, `send`, identifier and data (and the flag), and ends with the only line
feed; the data token is the padded payload. -/
theorem C16_command_line (brs : Bool) (c : Command) :
    ∃ line, fdcanusbLine brs c = line ++ [10] ∧
      splitSpace line = [[99, 97, 110], [115, 101, 110, 100], hex04 (busId c),
        hexify (padded c.data)] ++ (if brs then [[98]] else []) ∧
      dehexify (hexify (padded c.data)) = some (padded c.data) ∧
      pyIntHex (hex04 (busId c)) = some (busId c : Int) := by
  have hdata : hexify c.data ++ (List.replicate (roundUpDlc c.data.length - c.data.length)
      ([53, 48] : Bytes)).flatten = hexify (padded c.data) := by
    rw [replicate_hex]; unfold padded hexify; rw [List.flatMap_append]
  have htext : "can send ".toUTF8.toList = [99, 97, 110, 32, 115, 101, 110, 100, 32] := by
    decide +kernel
  refine ⟨_, rfl, ?_, dehexify_hexify _, (C16_identifier_text _).2⟩
  rw [hdata, htext]
  have e : [99, 97, 110, 32, 115, 101, 110, 100, 32] ++ hex04 (busId c) ++ [32] ++
      hexify (padded c.data) ++ (if brs then [32, 98] else []) =
      [99, 97, 110] ++ 32 :: ([115, 101, 110, 100] ++ 32 :: (hex04 (busId c) ++ 32 ::
        (hexify (padded c.data) ++ (if brs then [32, 98] else [])))) := by simp
  rw [e, splitSpace_cons _ _ (by decide), splitSpace_cons _ _ (by decide),
    splitSpace_cons _ _ (hex04_no_space _)]
  cases brs
  · simp [splitSpace_nospace _ (hex_no_space _)]
  · simp only [if_true]
    rw [show ([32, 98] : Bytes) = 32 :: [98] from rfl, splitSpace_cons _ _ (hex_no_space _)]
    rfl

instance (n : Nat) : Decidable (Legal n) := by unfold Legal; infer_instance

theorem legal_le (n : Nat) (h : Legal n) : n ≤ 64 := by unfold Legal at h; omega

theorem roundUp_spec (n : Nat) (hn : n ≤ 64) : n ≤ roundUpDlc n ∧ Legal (roundUpDlc n) ∧
    ∀ m, Legal m → n ≤ m → roundUpDlc n ≤ m := by
  have : ∀ n ≤ 64, n ≤ roundUpDlc n ∧ Legal (roundUpDlc n) ∧
    ∀ m ≤ 64, Legal m → n ≤ m → roundUpDlc n ≤ m := by decide +kernel
  obtain ⟨h1, h2, h3⟩ := this n hn
  exact ⟨h1, h2, fun m hm h => h3 m (legal_le m hm) hm h⟩

theorem fwRoundUp_eq (n : Nat) (h : n ≤ 64) : fwRoundUpDlc n = roundUpDlc n := by
  have : ∀ n ≤ 64, fwRoundUpDlc n = roundUpDlc n := by decide
  exact this n h

/-- C17: the client pads to the smallest legal size with NOPs. -/
theorem C17_client_padding (data : Bytes) (h : data.length ≤ 64) :
    PaddedBy 0x50 data (padded data) := by
  obtain ⟨h1, h2, h3⟩ := roundUp_spec data.length h
  have hl : (padded data).length = roundUpDlc data.length := by
    simp [padded]; omega
  exact ⟨by rw [hl]; exact h2, by rw [hl]; exact h3, _, rfl⟩

/-- C17: so does the controller. -/
theorem C17_controller_padding (s d p : Nat) (data : Bytes) (h : data.length ≤ 64) :
    PaddedBy 0x50 data (fwFrame s d p data).data := by
  have e : (fwFrame s d p data).data = padded data := by
    obtain ⟨h1, _, _⟩ := roundUp_spec data.length h
    unfold fwFrame padded
    simp only [fwRoundUp_eq _ h]
    split
    · next heq => rw [heq]; simp
    · rw [List.take_of_length_le]
      simp; omega
  rw [e]; exact C17_client_padding data h

/-- C17: all tables agree: client, controller, its length codes, the
bootloader. -/
theorem C17_tables_agree (n : Nat) (h : n ≤ 64) :
    fwRoundUpDlc n = roundUpDlc n ∧
    fwParseDlc (fwDlcCode n) = some (roundUpDlc n) ∧
    (bootRoundUpDlc n).bind fwParseDlc = some (roundUpDlc n) := by
  have : ∀ n ≤ 64, fwRoundUpDlc n = roundUpDlc n ∧ fwParseDlc (fwDlcCode n) = some (roundUpDlc n) ∧
    (bootRoundUpDlc n).bind fwParseDlc = some (roundUpDlc n) := by decide
  exact this n h

/-- C17: the bootloader uses the smallest legal size, but fills with zeros. -/
theorem C17_bootloader_padding (id s : Nat) (data : Bytes) (h : data.length ≤ 64) :
    ∃ f, bootFrame id s data = some f ∧ PaddedBy 0 data f.data := by
  have hd : ∀ n ≤ 64, ∃ dlc, bootRoundUpDlc n = some dlc ∧ kDlcToSize.getD dlc 0 = roundUpDlc n := by
    intro n hn
    have : ∀ n ≤ 64, (bootRoundUpDlc n).map (fun dlc => kDlcToSize.getD dlc 0) =
        some (roundUpDlc n) := by decide
    have := this n hn
    rw [Option.map_eq_some_iff] at this
    exact this
  obtain ⟨dlc, h1, h2⟩ := hd _ h
  refine ⟨_, by simp only [bootFrame, h1]; rfl, ?_⟩
  obtain ⟨k1, k2, k3⟩ := roundUp_spec data.length h
  simp only [h2]
  have hl : (data ++ List.replicate (roundUpDlc data.length - data.length) (0 : UInt8)).length =
      roundUpDlc data.length := by simp; omega
  exact ⟨by rw [hl]; exact k2, by rw [hl]; exact k3, _, rfl⟩

/-- C17: the bootloader's padding is not the NOP code. -/
theorem C17_bootloader_refuted :
    ∃ (data : Bytes) (f : BusFrame), data.length ≤ 64 ∧ bootFrame 1 0 data = some f ∧
      ¬ ∃ k, f.data = data ++ List.replicate k 0x50 := by
  refine ⟨[0x41, 0x01, 0x06, 1, 2, 3, 4, 5, 6], _, by decide, rfl, ?_⟩
  rintro ⟨k, hk⟩
  have h := congrArg (fun l => l.getD 9 1) hk
  have hlen := congrArg List.length hk
  have hk3 : k = 3 := by
    have e : (12 : Nat) = 9 + k := by
      have e2 : ([0x41, 0x01, 0x06, 1, 2, 3, 4, 5, 6] ++ List.replicate k (0x50 : UInt8)).length = 9 + k := by
        rw [List.length_append, List.length_replicate]; rfl
      rw [← e2, ← hlen]; rfl
    omega
  subst hk3
  exact absurd h (by decide)

/-- C17: larger payloads cannot be sent: the client would use an illegal size,
the controller sends an empty frame, and the bootloader's table has no entry. -/
theorem C17_too_large (data : Bytes) (s d p : Nat) (h : 64 < data.length) :
    ¬ Legal (padded data).length ∧ (fwFrame s d p data).data = [] ∧ bootRoundUpDlc data.length = none := by
  have h1 : roundUpDlc data.length = data.length := by
    unfold roundUpDlc
    repeat rw [if_neg (by omega)]
  have h2 : fwRoundUpDlc data.length = 0 := by
    unfold fwRoundUpDlc
    repeat rw [if_neg (by omega)]
  refine ⟨?_, ?_, ?_⟩
  · simp only [padded, h1, Nat.sub_self, List.replicate_zero, List.append_nil]
    unfold Legal; omega
  · unfold fwFrame
    simp only [h2]
    rw [if_neg (by omega)]; simp
  · unfold bootRoundUpDlc
    rw [List.findIdx?_eq_none_iff]
    intro x hx
    have : ∀ x ∈ kDlcToSize, x ≤ 64 := by decide
    have := this x hx
    simp; omega

example : PaddedBy 0x50 (List.replicate 13 7) (padded (List.replicate 13 7)) :=
  C17_client_padding _ (by decide)
example : (padded (List.replicate 13 7)).length = 16 := by decide

/-- C15: a raw frame goes out with the identifier it carries, whatever its
other fields say. -/
theorem C15_raw_identifier (c : Command) (h : c.raw = true) : busId c = c.arbitrationId := by
  simp [busId, h]

namespace Spec

/-- Digits of a Python integer literal: single underscores may stand between
two digits, nowhere else. -/
inductive HexBody : Bytes → List Nat → Prop
  | one {c d} : nybble c = some d → HexBody [c] [d]
  | digit {c d t ds} : nybble c = some d → HexBody t ds → HexBody (c :: t) (d :: ds)
  | sep {c d t ds} : nybble c = some d → HexBody t ds → HexBody (c :: 95 :: t) (d :: ds)

end Spec

theorem nybble_underscore : nybble 95 = none := by decide

theorem pyDigits_complete {t : Bytes} {ds : List Nat} (h : HexBody t ds) (p : Bool) (acc : Nat) :
    pyDigits p acc t = some (ds.foldl (fun a d => a * 16 + d) acc) := by
  have nu : ∀ {c : UInt8} {d : Nat}, nybble c = some d → c ≠ 95 := by
    intro c d h e
    rw [e, nybble_underscore] at h
    cases h
  induction h generalizing p acc with
  | one h => simp [pyDigits, nu h, h]
  | digit h _ ih => simp only [pyDigits, if_neg (nu h), h, ih, List.foldl_cons]
  | sep h _ ih => simp only [pyDigits, if_neg (nu h), h, ih, List.foldl_cons, if_true]

theorem pyDigits_sound (t : Bytes) : ∀ (acc n : Nat),
    (pyDigits false acc t = some n →
      ∃ ds, HexBody t ds ∧ n = ds.foldl (fun a d => a * 16 + d) acc) ∧
    (pyDigits true acc t = some n → (t = [] ∧ n = acc) ∨
      (∃ ds, HexBody t ds ∧ n = ds.foldl (fun a d => a * 16 + d) acc) ∨
      ∃ t' ds, t = 95 :: t' ∧ HexBody t' ds ∧ n = ds.foldl (fun a d => a * 16 + d) acc) := by
  induction t with
  | nil =>
    intro acc n
    constructor
    · intro h; simp [pyDigits] at h
    · intro h; simp [pyDigits] at h; exact Or.inl ⟨rfl, h.symm⟩
  | cons c t ih =>
    intro acc n
    have digit : ∀ d, nybble c = some d → pyDigits true (acc * 16 + d) t = some n →
        ∃ ds, HexBody (c :: t) ds ∧ n = ds.foldl (fun a d => a * 16 + d) acc := by
      intro d hd h
      rcases (ih _ n).2 h with ⟨rfl, h⟩ | ⟨ds, h1, h2⟩ | ⟨t', ds, rfl, h1, h2⟩
      · exact ⟨[d], .one hd, by assumption⟩
      · exact ⟨d :: ds, .digit hd h1, by simp [h2]⟩
      · exact ⟨d :: ds, .sep hd h1, by simp [h2]⟩
    constructor
    · intro h
      rw [pyDigits] at h
      split at h
      · simp at h
      · cases hd : nybble c with
        | none => simp [hd] at h
        | some d => rw [hd] at h; exact digit d hd h
    · intro h
      rw [pyDigits] at h
      split at h
      · next hc =>
        subst hc
        simp only [if_true] at h
        obtain ⟨ds, h1, h2⟩ := (ih _ n).1 h
        exact Or.inr (Or.inr ⟨t, ds, rfl, h1, h2⟩)
      · cases hd : nybble c with
        | none => simp [hd] at h
        | some d => rw [hd] at h; exact Or.inr (Or.inl (digit d hd h))

/-- C16: the digits `int(text, 16)` takes are exactly hex digits with single
underscores between them, and the value is their base 16 value. -/
theorem C16_python_hex_grammar (t : Bytes) (n : Nat) :
    pyDigits false 0 t = some n ↔
      ∃ ds, HexBody t ds ∧ n = ds.foldl (fun a d => a * 16 + d) 0 := by
  constructor
  · exact (pyDigits_sound t 0 n).1
  · rintro ⟨ds, h, rfl⟩
    exact pyDigits_complete h false 0

example : HexBody [49, 95, 65] [1, 10] := .sep rfl (.one rfl)
example : pyDigits false 0 [49, 95, 65] = some 26 ∧ pyDigits false 0 [95, 65] = none := by decide
example : busId { ({ } : Command) with raw := true, arbitrationId := 0x123, destination := 5 } = 0x123 := by
  decide

end Verif.Can
