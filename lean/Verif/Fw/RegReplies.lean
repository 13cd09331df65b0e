import Verif.Fw.RegUnits
import Verif.Commands.Props
import Mathlib.Tactic.IntervalCases

/-!
# Units of the replies (C47)

What the client makes of a register that the controller sends, for every
register that the client knows, every type and every value.
-/

namespace Verif.Fw.Registers

open Verif Verif.Float Verif.Multiplex Verif.Multiplex.Spec Verif.Commands Verif.Commands.Spec

/-- The bytes of a value in a reply: little endian, floats as singles. -/
def Value.bytes : Value → Bytes
  | .i8 n => leBytes 1 (ofSigned 1 n)
  | .i16 n => leBytes 2 (ofSigned 2 n)
  | .i32 n => leBytes 4 (ofSigned 4 n)
  | .f x => leBytes 4 ((pack32 x).getD 0)

/-- A `float` of the controller. -/
def IsSingle : Fl → Prop
  | .fin q => b32.roundQ q = q ∧ |q| < pow2 b32.emax
  | _ => True

/-- Values below this are limited to the number that means NaN in a 32 bit
register. -/
def NotBelow (k : Kind) (r : Res) (x : Fl) : Prop :=
  r = .int32 → ∀ v, x = .fin v → -(2147483000 * lsb k .int32) ≤ v

theorem scale_lsb (k : Kind) (r : Res) : k.scale r = step k r := scale_eq_step k r

/-- Decoding by the client of an integer that is not the NaN marker. -/
theorem unscale_units (k : Kind) (r : Res) (n : Int) (hr : r ≠ .f32) (hn : |n| ≤ top r) :
    ∃ w, unscaleInt n r (k.scale r) = .fin w ∧ |w - n * lsb k r| ≤ |n * lsb k r| / 2 ^ 50 := by
  have hl := lsb_pos k r
  obtain ⟨b1, b2⟩ := lsb_bounds k r
  obtain ⟨d1, d2⟩ := abs_le.mp (dsc k r)
  obtain ⟨t1, t2⟩ := top_bound r
  have hS1 : lsb k r * (1 - 1 / 2 ^ 53) ≤ step k r := by linarith
  have hS2 : step k r ≤ lsb k r * (1 + 1 / 2 ^ 53) := by linarith
  have hnq : |(n : ℚ)| ≤ 2147483647 := by
    have : |(n : ℚ)| ≤ top r := by exact_mod_cast hn
    linarith
  have hnz : |n| ≤ 2147483647 := by exact_mod_cast hnq
  rw [scale_lsb]
  obtain ⟨w, e1, e2⟩ := C04_decode_error n r (step k r)
    (by
      refine le_trans (le_trans (pow2_le (show (-1000 : ℤ) ≤ -100 by norm_num)) ?_) hS1
      have : pow2 (-100) = 1 / 2 ^ 100 := by rw [pow2_eq]; norm_num
      rw [this]
      exact le_trans (by norm_num : (1 : ℚ) / 2 ^ 100 ≤ 1 / 2147483647 * (1 - 1 / 2 ^ 53)) (by gcongr))
    (by
      refine le_trans (hS2.trans ?_) (pow2_le (show (64 : ℤ) ≤ 900 by norm_num))
      have : pow2 64 = 2 ^ 64 := by rw [pow2_eq]; norm_num
      rw [this]
      nlinarith)
    (by
      rw [abs_le] at hn
      cases r <;> first | exact absurd rfl hr | (simp only [top, Res.nanValue] at *; omega))
    (hnz.trans (by norm_num))
  refine ⟨w, e1, ?_⟩
  have hS0 : 0 < step k r := step_pos k r
  rw [abs_mul, abs_of_pos hS0] at e2
  rw [abs_mul, abs_of_pos hl]
  have e3 : |(n : ℚ) * step k r - n * lsb k r| ≤ |(n : ℚ)| * (lsb k r / 2 ^ 53) := by
    rw [← mul_sub, abs_mul]
    gcongr
    exact dsc k r
  have e4 : |w - n * lsb k r| ≤ |w - n * step k r| + |n * step k r - n * lsb k r| := by
    have : w - n * lsb k r = (w - n * step k r) + (n * step k r - n * lsb k r) := by ring
    rw [this]; exact abs_add_le _ _
  have e5 : |(n : ℚ)| * step k r / 2 ^ 53 ≤ |(n : ℚ)| * (lsb k r * (1 + 1 / 2 ^ 53)) / 2 ^ 53 := by gcongr
  have h0 : 0 ≤ |(n : ℚ)| * lsb k r := by positivity
  have e6 : |(n : ℚ)| * (lsb k r * (1 + 1 / 2 ^ 53)) / 2 ^ 53 + |(n : ℚ)| * (lsb k r / 2 ^ 53) ≤
      |(n : ℚ)| * lsb k r / 2 ^ 50 := by
    have : |(n : ℚ)| * (lsb k r * (1 + 1 / 2 ^ 53)) / 2 ^ 53 + |(n : ℚ)| * (lsb k r / 2 ^ 53) =
      |(n : ℚ)| * lsb k r * ((1 + 1 / 2 ^ 53) / 2 ^ 53 + 1 / 2 ^ 53) := by ring
    rw [this]
    have : |(n : ℚ)| * lsb k r / 2 ^ 50 = |(n : ℚ)| * lsb k r * (1 / 2 ^ 50) := by ring
    rw [this]
    gcongr
    norm_num
  linarith

/-- Encoding by the controller of a finite value. -/
theorem saturate_units (k : Kind) (r : Res) (hr : r ≠ .f32) (v : ℚ) (hv : NotBelow k r (.fin v)) :
    |scaleSaturate (top r) (.fin v) (fscale k r)| ≤ top r ∧
    |scaleSaturate (top r) (.fin v) (fscale k r) * lsb k r - clampTo k r v| ≤
      lsb k r * (1 + 1 / 2 ^ 20) + |clampTo k r v| * (33 / 10 / 2 ^ 24) := by
  rw [fscale_eq k r hr]
  have hl := lsb_pos k r
  have hs := fsc k r
  unfold clampTo
  generalize b32.roundQ (lsb k r) = s at hs
  match r, hr with
  | .int8, _ =>
    exact saturate_core (m := 127) (M := 127) (by norm_num) (by norm_num) (by norm_num) (by norm_num)
      (by norm_num) (Or.inl rfl) (by decide +kernel) (by decide +kernel) hl hs v (by norm_num)
  | .int16, _ =>
    exact saturate_core (m := 32767) (M := 32767) (by norm_num) (by norm_num) (by norm_num)
      (by norm_num) (by norm_num) (Or.inl rfl) (by decide +kernel) (by decide +kernel) hl hs v
      (by norm_num)
  | .int32, _ =>
    exact saturate_core (m := 2147483647) (M := 2147483648) (by norm_num) (by norm_num)
      (by norm_num) (by norm_num) (by norm_num) (Or.inr rfl) (by decide +kernel) (by decide +kernel)
      hl hs v (fun _ => hv rfl v rfl)

theorem scaleMapping_int (k : Kind) (r : Res) (hr : r ≠ .f32) (x : Fl) :
    scaleMapping k x r = intValue r (scaleSaturate (top r) x (fscale k r)) := by
  cases r <;> first | exact absurd rfl hr | rfl

theorem unpackInt_bytes (r : Res) (hr : r ≠ .f32) (n : Int) (h1 : -top r - 1 ≤ n) (h2 : n ≤ top r) :
    unpackInt r (intValue r n).bytes = n := by
  have aux : ∀ w : Nat, 0 < w → -(2 ^ (8 * w - 1) : Int) ≤ n → n < (2 ^ (8 * w - 1) : Int) →
      toSigned w (leNat (leBytes w (ofSigned w n))) = n := by
    intro w hw a b
    exact int_bytes_roundtrip w n hw a b
  cases r <;> simp only [top] at h1 h2
  · exact aux 1 (by decide) (by omega) (by omega)
  · exact aux 2 (by decide) (by omega) (by omega)
  · exact aux 4 (by decide) (by omega) (by omega)
  · exact absurd rfl hr

theorem unpack_single {x : Fl} (h : IsSingle x) :
    unpack32 (leNat (Value.f x).bytes) = x := by
  show unpack32 (leNat (leBytes 4 ((pack32 x).getD 0))) = x
  have key : ∀ bits, pack32 x = some bits → unpack32 bits = x →
      unpack32 (leNat (leBytes 4 ((pack32 x).getD 0))) = x := by
    intro bits h1 h2
    rw [h1, Option.getD_some, leNat_leBytes, Nat.mod_eq_of_lt (by simpa using pack32_lt h1)]
    exact h2
  match x, h with
  | .fin q, h =>
    obtain ⟨bits, h1, -, h2⟩ := unpack_pack_fin (q := q) (by rw [h.1]; exact h.2)
    exact key bits h1 (by rw [h2, h.1])
  | .nan, _ =>
    obtain ⟨bits, h1, -, h2⟩ := unpack_pack_nonfinite .nan (by simp)
    exact key bits h1 h2
  | .inf n, _ =>
    obtain ⟨bits, h1, -, h2⟩ := unpack_pack_nonfinite (.inf n) (by simp)
    exact key bits h1 h2

/-- C47, one value: the client decodes what the controller encodes, with the
same unit. -/
theorem C47_reply_unit (k : Kind) (r : Res) (x : Fl) (hx : IsSingle x) (hv : NotBelow k r x) :
    ∃ y, readMapped k r (scaleMapping k x r).bytes = .float y ∧ Arrives k r x y := by
  by_cases hr : r = .f32
  · subst hr
    refine ⟨x, ?_, ?_⟩
    · show Val.float (unpack32 (leNat (Value.f x).bytes)) = _
      rw [unpack_single hx]
    · match x, hx with
      | .fin q, h => show Fl.fin q = .fin (b32.roundQ q); rw [h.1]
      | .nan, _ => rfl
      | .inf _, _ => rfl
  · have e0 : ∀ b, readMapped k r b = .float (unscaleInt (unpackInt r b) r (k.scale r)) := by
      intro b
      cases r <;> first | exact absurd rfl hr | rfl
    have e9 : ∀ y, ArrivesInt k r y x → Arrives k r x y := by
      intro y h
      cases r <;> first | exact absurd rfl hr | exact h
    have ht := top_bound r
    have ht0 : 0 ≤ top r := by exact_mod_cast ht.1
    rw [e0, scaleMapping_int k r hr]
    refine ⟨_, rfl, e9 _ ?_⟩
    have nf : (∀ q, x ≠ .fin q) → unscaleInt
        (unpackInt r (intValue r (scaleSaturate (top r) x (fscale k r))).bytes) r (k.scale r) = .nan := by
      intro h
      have h1 : scaleSaturate (top r) x (fscale k r) = -top r - 1 := by
        unfold scaleSaturate
        match x, h with
        | .nan, _ => rfl
        | .inf _, _ => rfl
        | .fin q, h => exact absurd rfl (h q)
      rw [h1, unpackInt_bytes r hr _ (le_refl _) (by omega)]
      unfold unscaleInt
      rw [if_pos]
      cases r <;> first | exact absurd rfl hr | rfl
    match x, hv, nf with
    | .nan, _, nf => exact nf (by simp)
    | .inf _, _, nf => exact nf (by simp)
    | .fin v, hv, _ =>
      obtain ⟨s1, s2⟩ := saturate_units k r hr v hv
      generalize scaleSaturate (top r) (.fin v) (fscale k r) = n at s1 s2
      obtain ⟨a1, a2⟩ := abs_le.mp s1
      rw [unpackInt_bytes r hr n (by omega) a2]
      obtain ⟨w, e1, e2⟩ := unscale_units k r n hr s1
      refine ⟨w, e1, ?_⟩
      have hl := lsb_pos k r
      set c := clampTo k r v
      set l := lsb k r
      have e3 : |(n : ℚ) * l| ≤ |c| + (l * (1 + 1 / 2 ^ 20) + |c| * (33 / 10 / 2 ^ 24)) := by
        have := abs_sub_abs_le_abs_sub ((n : ℚ) * l) c
        linarith
      have e4 : |w - c| ≤ |w - n * l| + |n * l - c| := by
        have : w - c = (w - n * l) + (n * l - c) := by ring
        rw [this]; exact abs_add_le _ _
      have : 0 ≤ |c| := abs_nonneg c
      linarith

/-! ## The registers -/

/-- Every register that the client decodes as a quantity of kind `k`, the
controller encodes as a quantity of this kind. -/
theorem mapped_source {reg : Nat} {k : Kind} (h : regKind reg = .mapped k) (uuid : Bytes) (b : Board)
    (c : CommandData) : ∃ x, source uuid b c reg = .num k x := by
  have hb : reg ≤ 0x7f := by
    by_contra hc
    unfold regKind at h
    repeat' first
      | rw [if_neg (by omega)] at h
    cases h
  interval_cases reg <;> simp [regKind] at h <;> subst h <;> exact ⟨_, rfl⟩

/-- C47, replies: for every register that the client decodes as a scaled
quantity, and every type, the number that the client returns is the number
that the controller holds (`x`, what it sends when asked for a float), within
one LSB of the documented unit. -/
theorem C47_replies_partial (reg : Nat) (k : Kind) (h : regKind reg = .mapped k) (uuid : Bytes)
    (b : Board) (s : St) (hs : s.discardAll = false) :
    ∃ x, read uuid b s reg .f32 = .ok (.f x) ∧
      ∀ r, IsSingle x → NotBelow k r x → ∃ v y, read uuid b s reg r = .ok v ∧
        parseRegister reg r v.bytes = .ok (.float y) ∧ Arrives k r x y := by
  obtain ⟨x, hx⟩ := mapped_source h uuid b s.command
  have hread : ∀ r, read uuid b s reg r = .ok (scaleMapping k x r) := by
    intro r
    unfold read
    rw [hs, hx]
    rfl
  refine ⟨x, hread .f32, fun r h1 h2 => ?_⟩
  obtain ⟨y, e1, e2⟩ := C47_reply_unit k r x h1 h2
  refine ⟨_, y, hread r, ?_, e2⟩
  unfold parseRegister
  rw [h]
  show Except.ok _ = _
  rw [e1]

/-- An integer that a register of type `r` can hold (exactly, as a float). -/
def Fits (r : Res) (n : Int) : Prop :=
  match r with
  | .int8 => -128 ≤ n ∧ n ≤ 127
  | .int16 => -32768 ≤ n ∧ n ≤ 32767
  | .int32 => -2147483648 ≤ n ∧ n ≤ 2147483647
  | .f32 => |n| ≤ 2 ^ 24

theorem wrap_fits {bits : Nat} {n : Int} (h1 : -(2 ^ bits) ≤ 2 * n) (h2 : 2 * n < 2 ^ bits) :
    wrap bits n = n := by
  unfold wrap
  have h0 : (2 : Int) ^ bits = ((2 ^ bits : Nat) : Int) := by push_cast; rfl
  rw [show ((2 : Nat) ^ bits) = (2 ^ bits : Nat) from rfl]
  refine Int.bmod_eq_of_le ?_ ?_ <;> push_cast at * <;> omega

theorem integer_source {reg : Nat} (h : regKind reg = .integer) (h2 : reg ≠ 0x070) (uuid : Bytes)
    (b : Board) (c : CommandData) : ∃ n, source uuid b c reg = .int n := by
  have hb : reg ≤ 0x7f := by
    by_contra hc
    unfold regKind at h
    repeat' first
      | rw [if_neg (by omega)] at h
    cases h
  interval_cases reg <;> simp [regKind] at h <;> first | exact ⟨_, rfl⟩ | exact absurd rfl h2

theorem parse_int_value {reg : Nat} (h : regKind reg = .integer) (r : Res) (n : Int) (hn : Fits r n) :
    parseRegister reg r (intMapping n r).bytes = .ok (.int n) := by
  unfold parseRegister
  rw [h]
  show pyInt (unpackVal r (intMapping n r).bytes) = _
  cases r with
  | int8 =>
    show pyInt (.int (unpackInt .int8 (Value.i8 (wrap 8 n)).bytes)) = _
    simp only [Fits] at hn
    rw [wrap_fits (by norm_num; omega) (by norm_num; omega)]
    have := unpackInt_bytes .int8 (by decide) n (by simp only [top]; omega) (by simp only [top]; omega)
    rw [show (Value.i8 n).bytes = (intValue .int8 n).bytes from rfl, this]
    rfl
  | int16 =>
    show pyInt (.int (unpackInt .int16 (Value.i16 (wrap 16 n)).bytes)) = _
    simp only [Fits] at hn
    rw [wrap_fits (by norm_num; omega) (by norm_num; omega)]
    have := unpackInt_bytes .int16 (by decide) n (by simp only [top]; omega) (by simp only [top]; omega)
    rw [show (Value.i16 n).bytes = (intValue .int16 n).bytes from rfl, this]
    rfl
  | int32 =>
    show pyInt (.int (unpackInt .int32 (Value.i32 (wrap 32 n)).bytes)) = _
    simp only [Fits] at hn
    rw [wrap_fits (by norm_num; omega) (by norm_num; omega)]
    have := unpackInt_bytes .int32 (by decide) n (by simp only [top]; omega) (by simp only [top]; omega)
    rw [show (Value.i32 n).bytes = (intValue .int32 n).bytes from rfl, this]
    rfl
  | f32 =>
    have hrep := Ar.single_law2.rep_int (n := n) hn
    have hl : Ar.single.lit n = .fin n := hrep.rnd
    show pyInt (.float (unpack32 (leNat (Value.f (Ar.single.lit n)).bytes))) = _
    rw [hl, unpack_single]
    · show Except.ok (Val.int (truncQ n)) = _
      rw [truncQ_int]
    · refine ⟨hrep.1, ?_⟩
      have := hrep.2
      simpa [Ar.single] using this

/-- C47, replies: every register that the client decodes as an integer is
sent as this integer, for every type that can hold it.  (The millisecond
counter is in `C47_counter`.) -/
theorem C47_integers (reg : Nat) (h : regKind reg = .integer) (h2 : reg ≠ 0x070) (uuid : Bytes)
    (b : Board) (s : St) (hs : s.discardAll = false) :
    ∃ n, ∀ r, Fits r n → ∃ v, read uuid b s reg r = .ok v ∧
      parseRegister reg r v.bytes = .ok (.int n) := by
  obtain ⟨n, hn⟩ := integer_source h h2 uuid b s.command
  refine ⟨n, fun r hr => ⟨intMapping n r, ?_, parse_int_value h r n hr⟩⟩
  unfold read
  rw [hs, hn]
  rfl

/-- Where the millisecond counter wraps, docs/reference.md:1170-1176. -/
def counterModulus : Res → Int
  | .int8 => 256
  | .int16 => 65536
  | .int32 => 4294967296
  | .f32 => 8388608

theorem wrap8 (n : Int) : -128 ≤ wrap 8 n ∧ wrap 8 n ≤ 127 ∧ wrap 8 n % 256 = n % 256 := by
  simp only [wrap, Int.bmod]; norm_num; split <;> omega
theorem wrap16 (n : Int) : -32768 ≤ wrap 16 n ∧ wrap 16 n ≤ 32767 ∧ wrap 16 n % 65536 = n % 65536 := by
  simp only [wrap, Int.bmod]; norm_num; split <;> omega
theorem wrap32 (n : Int) : -2147483648 ≤ wrap 32 n ∧ wrap 32 n ≤ 2147483647 ∧
    wrap 32 n % 4294967296 = n % 4294967296 := by
  simp only [wrap, Int.bmod]; norm_num; split <;> omega

/-- C47: the millisecond counter as the client sees it, modulo the range of
the type (modulo 2^23 as a float). -/
theorem C47_counter (uuid : Bytes) (b : Board) (s : St) (hs : s.discardAll = false) (r : Res) :
    ∃ v n, read uuid b s 0x070 r = .ok v ∧ parseRegister 0x070 r v.bytes = .ok (.int n) ∧
      n % counterModulus r =
        b.milliseconds % counterModulus r ∧
      Fits r n := by
  have hread : read uuid b s 0x070 r = .ok (counterValue b.milliseconds r) := by
    unfold read
    rw [hs]
    rfl
  rw [hread]
  generalize b.milliseconds = ms
  have key : ∀ n, counterValue ms r = intMapping n r → Fits r n →
      ∃ v n', (Except.ok (counterValue ms r) : Except Nat Value) = .ok v ∧
        parseRegister 0x070 r v.bytes = .ok (.int n') ∧ n' = n := by
    intro n e h
    exact ⟨_, n, rfl, by rw [e]; exact parse_int_value (by decide) r n h, rfl⟩
  have wr : ∀ bits n, wrap bits (wrap bits n) = wrap bits n := by
    intro bits n
    unfold wrap
    simp [Int.bmod_bmod]
  cases r with
  | int8 =>
    have hw := wrap8 (ms % 256 : Nat)
    have hf : Fits .int8 (wrap 8 (ms % 256 : Nat)) := ⟨hw.1, hw.2.1⟩
    obtain ⟨v, n, h1, h2, h3⟩ := key (wrap 8 (ms % 256 : Nat)) (by
      show Value.i8 _ = .i8 _
      rw [wr]) hf
    refine ⟨v, n, h1, h2, ?_, h3 ▸ hf⟩
    rw [h3]; simp only [counterModulus]; omega
  | int16 =>
    have hw := wrap16 (ms % 65536 : Nat)
    have hf : Fits .int16 (wrap 16 (ms % 65536 : Nat)) := ⟨hw.1, hw.2.1⟩
    obtain ⟨v, n, h1, h2, h3⟩ := key (wrap 16 (ms % 65536 : Nat)) (by
      show Value.i16 _ = .i16 _
      rw [wr]) hf
    refine ⟨v, n, h1, h2, ?_, h3 ▸ hf⟩
    rw [h3]; simp only [counterModulus]; omega
  | int32 =>
    have hw := wrap32 (ms : Nat)
    have hf : Fits .int32 (wrap 32 (ms : Nat)) := ⟨hw.1, hw.2.1⟩
    obtain ⟨v, n, h1, h2, h3⟩ := key (wrap 32 (ms : Nat)) (by
      show Value.i32 _ = .i32 _
      rw [wr]) hf
    refine ⟨v, n, h1, h2, ?_, h3 ▸ hf⟩
    rw [h3]; simp only [counterModulus]; omega
  | f32 =>
    have hf : Fits .f32 ((ms % 8388608 : Nat) : Int) := by
      simp only [Fits]; rw [abs_of_nonneg (by omega)]; omega
    obtain ⟨v, n, h1, h2, h3⟩ := key ((ms % 8388608 : Nat) : Int) (by
      show Value.f _ = .f _
      congr 1) hf
    refine ⟨v, n, h1, h2, ?_, h3 ▸ hf⟩
    rw [h3]; simp only [counterModulus]; omega

/-! ## Where the property fails -/

/-- A controller at rest. -/
def boardAtRest : Board where
  mode := 0
  position := .fin 0
  velocity := .fin 0
  torque := .fin 0
  qA := .fin 0
  dA := .fin 0
  power := .fin 0
  motorTemp := .fin 25
  fetTemp := .fin 25
  busV := .fin 24
  trajectoryDone := false
  homed := 0
  fault := 0
  pidP := .fin 0
  pidIntegral := .fin 0
  pidD := .fin 0
  pidError := .fin 0
  pidErrorRate := .fin 0
  controlTorque := .fin 0
  controlPosition := .nan
  controlVelocity := none
  torqueError := .fin 0
  filtered := fun _ => .fin 0
  encVelocity := fun _ => .fin 0
  cpr := fun _ => .fin 16384
  activeTheta := fun i => i == 0
  activeVelocity := fun i => i == 0
  pins := fun _ => [false, false, false, false, false]
  analog := fun _ _ => .fin 0
  auxPwm := fun _ _ => .fin 0
  milliseconds := 1234
  trim := 0
  modelNumber := 0
  firmwareVersion := 0x105
  serial := fun _ => 0
  fsr1 := 0
  fsr2 := 0

/-- C47 fails at the negative end of the 32 bit range: a position of -30000
revolutions is read as NaN, where one of 30000 is read as 21474.83647. -/
theorem C47_negative_int32_refuted :
    (∃ v, read [] { boardAtRest with position := .fin (-30000) } .init 0x001 .int32 = .ok v ∧
      parseRegister 0x001 .int32 v.bytes = .ok (.float .nan)) ∧
    (∃ v w, read [] { boardAtRest with position := .fin 30000 } .init 0x001 .int32 = .ok v ∧
      parseRegister 0x001 .int32 v.bytes = .ok (.float (.fin w)) ∧ |w - 2147483647 / 100000| < 1 / 100000) := by
  refine ⟨⟨.i32 (-2147483648), by decide +kernel, by decide +kernel⟩,
    ⟨.i32 2147483647, b64.roundQ (2147483647 * Kind.scale .position .int32), by decide +kernel, by decide +kernel, by decide +kernel⟩⟩

/-- C47 fails for the registers of the command: the controller scales them,
the client returns the bare integer.  Reading the commanded position 0.5 back
as INT16 gives 5000. -/
theorem C47_command_registers_refuted :
    (∀ reg ∈ [0x010, 0x011, 0x012, 0x014, 0x015, 0x016, 0x018, 0x019, 0x01a, 0x01b, 0x01c, 0x01d, 0x01e,
        0x020, 0x021, 0x022, 0x023, 0x024, 0x025, 0x026, 0x027, 0x028, 0x029, 0x02a, 0x02b, 0x02c,
        0x040, 0x041, 0x042, 0x043, 0x044, 0x045, 0x046, 0x047],
      regKind reg = .raw ∧ ∀ uuid b c, ∃ k x, source uuid b c reg = .num k x) ∧
    (∃ s : St, s.command.val .position = .fin (1 / 2) ∧
      ∃ v, read [] boardAtRest s 0x020 .int16 = .ok v ∧
        parseRegister 0x020 .int16 v.bytes = .ok (.int 5000)) := by
  constructor
  · intro reg h
    simp only [List.mem_cons, List.not_mem_nil, or_false] at h
    rcases h with h | h | h | h | h | h | h | h | h | h | h | h | h | h | h | h | h | h | h | h | h | h |
      h | h | h | h | h | h | h | h | h | h | h | h <;> subst h <;>
      exact ⟨by decide, fun _ _ _ => ⟨_, _, rfl⟩⟩
  · exact ⟨{ St.init with command := CommandData.init.set .position (.fin (1 / 2)) }, rfl,
      .i16 5000, by decide +kernel, by decide +kernel⟩

/-- The hypotheses of the theorems above hold for ordinary values: a position
of 1.25 revolutions read as INT16. -/
example : regKind 0x001 = .mapped .position ∧ IsSingle (.fin (5 / 4)) ∧ NotBelow .position .int16 (.fin (5 / 4)) ∧
    read [] { boardAtRest with position := .fin (5 / 4) } .init 0x001 .int16 = .ok (.i16 12500) := by
  refine ⟨by decide, ⟨by decide +kernel, by decide +kernel⟩, ?_, by decide +kernel⟩
  intro h; cases h

example : Fits .int8 10 ∧ regKind 0x000 = .integer := ⟨by simp only [Fits]; omega, by decide⟩

end Verif.Fw.Registers
