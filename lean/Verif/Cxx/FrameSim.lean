import Verif.Cxx.QuerySim

/-! # Commands of both libraries -/

namespace Verif.Cxx

open Verif Verif.Float Verif.Multiplex Verif.Multiplex.Spec Verif.Commands Verif.Commands.Spec
  Verif.Cxx.Spec

/-! ## Values -/

theorem limMax_eq (r : Res) (h : r.IsInt) : limMax r = r.max := by
  cases r <;> first | rfl | exact absurd rfl h

theorem limMin_eq (r : Res) : limMin r = r.nanValue := by cases r <;> rfl

theorem saturate_eq (r : Res) (h : r.IsInt) (x : Fl) (scale : ℚ) :
    saturate r x scale = saturateInt x r scale := by
  cases x with
  | nan => exact limMin_eq r
  | inf n => exact limMin_eq r
  | fin v =>
    simp only [saturate, saturateInt, limMax_eq r h, divF]
    cases hs : b64.round (v / scale) with
    | nan => exact absurd hs (divF_ne_nan v scale)
    | inf n => cases n <;> simp [Fl.blt, Fl.ble]
    | fin q =>
      have : ∀ a b : ℚ, (Fl.blt (.fin a) (.fin b) = true) = (a < b) := by
        intro a b
        simp only [Fl.blt, Fl.ble, Bool.and_eq_true, decide_eq_true_eq, Bool.not_eq_true',
          decide_eq_false_iff_not, not_le, eq_iff_iff]
        exact ⟨fun h => h.2, fun h => ⟨h.le, h⟩⟩
      simp only [this]

theorem saturate_pack (r : Res) (h : r.IsInt) (x : Fl) (scale : ℚ) (f : Bytes) :
    writeInt f r (saturate r x scale) = lift f (writeMappedInt x scale r) := by
  rw [saturate_eq r h]
  have hr : -(2 ^ (8 * r.size - 1) : Int) ≤ saturateInt x r scale ∧
      saturateInt x r scale < (2 ^ (8 * r.size - 1) : Int) := by
    have hm : (2 ^ (8 * r.size - 1) : Int) = r.max + 1 := by
      cases r <;> first | rfl | exact absurd rfl h
    rw [hm]
    have hn := nanValue_eq h
    have hp := max_pos h
    cases x with
    | nan => simp only [saturateInt]; omega
    | inf n => simp only [saturateInt]; omega
    | fin v => have := saturateInt_range v r scale h; omega
  unfold writeMappedInt packInt writeInt
  rw [if_pos hr]
  rfl

theorem float_pack (x : Fl) (hd : IsDouble x) (hs : ∀ v, x = .fin v → |b32.roundQ v| < pow2 128)
    (f : Bytes) : writeFloat f x = lift f (writeF32 (saturateF32 x)) := by
  rw [saturateF32_double hd]
  cases hp : pack32 x with
  | none =>
    obtain ⟨q, h1, h2⟩ := (pack32_none_iff x).mp hp
    exact (lt_irrefl _ (lt_of_lt_of_le (hs q h1) h2)).elim
  | some b =>
    rw [writeF32_ok hp]
    unfold writeFloat floatBits
    rw [hp]
    rfl

/-- A C++ writer that scales like the Python writer of this kind. -/
def IsWriter (k : Kind) (w : Fl → Option Res → Bytes → Except Halt Bytes) : Prop :=
  ∀ x res f, w x res f = writeMapped f x (k.scale .int8) (k.scale .int16) (k.scale .int32) res

theorem isWriter_position : IsWriter .position writePosition := fun _ _ _ => rfl
theorem isWriter_velocity : IsWriter .velocity writeVelocity := fun _ _ _ => rfl
theorem isWriter_accel : IsWriter .accel writeAccel := fun _ _ _ => rfl
theorem isWriter_torque : IsWriter .torque writeTorque := fun _ _ _ => rfl
theorem isWriter_pwm : IsWriter .pwm writePwm := fun _ _ _ => rfl
theorem isWriter_voltage : IsWriter .voltage writeVoltage := fun _ _ _ => rfl
theorem isWriter_time : IsWriter .time writeTime := fun _ _ _ => rfl
theorem isWriter_current : IsWriter .current writeCurrent := fun _ _ _ => rfl

theorem writer_same {k : Kind} {w : Fl → Option Res → Bytes → Except Halt Bytes} (hw : IsWriter k w)
    {res : Option Res} {x : Fl} (hs : Sendable res x) (hr : res.isSome) (f : Bytes) :
    w x res f = lift f (Commands.writeMapped k (some x) res) := by
  rw [hw]
  cases res with
  | none => cases hr
  | some r =>
    cases r with
    | int8 => exact saturate_pack .int8 (by decide) x _ f
    | int16 => exact saturate_pack .int16 (by decide) x _ f
    | int32 => exact saturate_pack .int32 (by decide) x _ f
    | f32 => exact float_pack x hs.1 (hs.2 rfl) f

/-- The resolution and the two writes of a parameter. -/
def pair (k : Kind) (w : Fl → Option Res → Bytes → Except Halt Bytes) (fmt : Option Res) (x : Fl)
    (res : Option Res) (arg : Option Fl) : Pair :=
  (fmt, Commands.writeMapped k arg res, w x fmt)

def PairOk (p : Pair) : Prop := p.1.isSome → ∀ f : Bytes, f.length ≤ 64 → p.2.2 f = lift f p.2.1

theorem pair_ok {k : Kind} {w : Fl → Option Res → Bytes → Except Halt Bytes} (hw : IsWriter k w)
    {fmt res : Option Res} {x : Fl} {arg : Option Fl} (h : SameParam fmt x res arg) :
    PairOk (pair k w fmt x res arg) := by
  intro hs f _
  simp only [pair] at hs ⊢
  rcases h.1 with ⟨_, h2⟩ | ⟨h1, h2⟩
  · rw [h2] at hs; cases hs
  · subst h1; subst h2
    exact writer_same hw h.2 hs f

theorem sel_same {fmt res : Option Res} {x : Fl} {arg : Option Fl} (h : Given fmt x res arg) :
    sel res arg = fmt := by
  rcases h with ⟨rfl, rfl⟩ | ⟨rfl, rfl⟩ <;> rfl

/-! ## Blocks -/

theorem block_same (start : Nat) (es : List Pair) (hlen : es.length < 128) (hw : ∀ p ∈ es, PairOk p)
    (f : Bytes) (hf : f.length ≤ 64) :
    ((Combiner.init 0x00 start (es.map (·.1))).run f (es.map (·.2.2))).map Prod.fst =
      lift [] (((WriteCombiner.init f 0x00 start (es.map (·.1))).run (es.map (·.2.1))).map (·.buf)) := by
  have hs := run_sim (Or.inl rfl : BaseOk 0x00) es [] (WriteCombiner.init f 0x00 start (es.map (·.1)))
    (Combiner.init 0x00 start (es.map (·.1))) rfl rfl rfl rfl
    ((runsOk_iff _ _ (by simp [WriteCombiner.init])).mpr (longRun_short (by simpa using hlen))) hf hw
  rw [show (WriteCombiner.init f 0x00 start (es.map (·.1))).buf = f from rfl] at hs
  rw [hs]
  cases (WriteCombiner.init f 0x00 start (es.map (·.1))).run (es.map (·.2.1)) with
  | error e => rfl
  | ok p =>
    simp only [capRun, lift, Except.map, write_eq, cap, List.nil_append]
    by_cases h : 64 < p.buf.length
    · simp only [if_pos h]
    · simp only [if_neg h]

theorem makeMode_same (f : Bytes) {mode : Nat} (h : mode < 128) :
    makeMode f mode = write f [1, 0, UInt8.ofNat mode] := by
  unfold makeMode
  have h1 : writeInt f .int8 (0x00 + 0x01) = write f [1] := writeInt8_eq f (n := 1) (by omega)
  have h2 : ∀ f, writeInt f .int8 0x000 = write f [0] := fun f => writeInt8_eq f (n := 0) (by omega)
  have h3 : ∀ f, writeInt f .int8 mode = write f [UInt8.ofNat mode] :=
    fun f => writeInt8_eq f (by omega)
  simp only [h1, h2, h3, write_write]
  rfl

theorem modeWrite_eq {mode : Nat} (h : mode < 128) : modeWrite mode = .ok [1, 0, UInt8.ofNat mode] := by
  unfold modeWrite
  rw [writeInt8_ok h]
  rfl

/-- A mode and a block: C++ builds the frame that Python builds. -/
theorem modeBlock_same {mode : Nat} (hm : mode < 128) (start : Nat) (es : List Pair)
    (hlen : es.length < 128) (hw : ∀ p ∈ es, PairOk p) :
    makeModeBlock [] mode start (es.map (·.1)) (es.map (·.2.2)) =
      lift [] (do
        let buf ← modeWrite mode
        let w ← (WriteCombiner.init buf 0x00 start (es.map (·.1))).run (es.map (·.2.1))
        pure w.buf) := by
  unfold makeModeBlock
  rw [makeMode_same [] hm, modeWrite_eq hm, write_eq]
  show ((Combiner.init 0x00 start (es.map (·.1))).run [1, 0, UInt8.ofNat mode] (es.map (·.2.2))).map
    Prod.fst = _
  rw [block_same start es hlen hw _ (by simp)]
  congr 1

/-! ## Frames -/

def capBody : Except Err Bytes → Except Halt (Bytes × Nat)
  | .ok b => if 64 < b.length then .error .abort else .ok (b, 0)
  | .error _ => .error .abort

/-- A command built by both libraries from the same body, with the query
appended. -/
theorem frame_same {cx : Controller} {py : Commands.Controller} {query : Bool}
    (hc : SameController cx py query) {oc : Option QueryFormat} {op : Option QueryResolution}
    (ho : SameOverride oc op) (body : Except Err Bytes) (cmd : Bytes → Except Halt Bytes)
    (hcmd : cmd [] = lift [] body) :
    SameFrame (body >>= fun buf => py.formatQuery query op buf (py.makeCommand query op))
      (cx.makeFrame (plain cmd) oc) := by
  have hbody : plain cmd [] = capBody body := by
    unfold plain
    rw [hcmd]
    cases body with
    | error e => rfl
    | ok b =>
      simp only [lift, capBody, write_eq, cap, List.nil_append]
      by_cases h : 64 < b.length
      · simp only [if_pos h]; rfl
      · simp only [if_neg h]; rfl
  intro f
  unfold Controller.makeFrame
  rw [hbody]
  cases body with
  | error e =>
    constructor
    · intro h; cases h
    · rintro ⟨c, h, _⟩; cases h
  | ok b =>
    simp only [capBody]
    by_cases hb : 64 < b.length
    · rw [if_pos hb]
      constructor
      · intro h; cases h
      · rintro ⟨c, h, hl, _⟩
        exfalso
        have h' : py.formatQuery query op b (py.makeCommand query op) = .ok c := h
        unfold Controller.formatQuery at h'
        cases op with
        | some q =>
          simp only at h'
          cases hq : makeQueryData q with
          | error e => rw [hq] at h'; cases h'
          | ok p =>
            rw [hq] at h'
            cases h'
            simp only [List.length_append] at hl
            omega
        | none =>
          cases query with
          | true => cases h'; simp only [List.length_append] at hl; omega
          | false => cases h'; simp only at hl; omega
    · rw [if_neg hb]
      show _ ↔ ∃ c, py.formatQuery query op b (py.makeCommand query op) = .ok c ∧ _
      have hid := hc.id
      have hdq := hc.default_query
      cases oc with
      | some qf =>
        cases op with
        | none => exact ho.elim
        | some q =>
          obtain ⟨qb, n, hn, hp, ha⟩ := query_same (show SameQuery qf q from ho)
          simp only [Controller.formatQuery, hp, bind, Except.bind]
          rw [show Cxx.makeQuery b qf = _ from ha b (by omega)]
          unfold fit
          by_cases hl : 64 < (b ++ qb).length
          · rw [if_pos hl]
            constructor
            · intro h; cases h
            · rintro ⟨c, h, h2, _⟩
              cases h
              simp only [List.length_append] at *
              omega
          · rw [if_neg hl, Nat.mod_eq_of_lt hn]
            constructor
            · intro h
              cases h
              refine ⟨_, rfl, by simpa using hl, ?_⟩
              simp [asFrame, Controller.makeCommand, hid]
            · rintro ⟨c, h, h2, rfl⟩
              cases h
              simp [asFrame, Controller.makeCommand, hid, bind, Except.bind]
      | none =>
        cases op with
        | some q => exact ho.elim
        | none =>
          obtain ⟨qb, n, hn, hp, ha⟩ := query_same hc.query_format
          have hpy := hc.python
          unfold Controller.Constructed at hpy
          rw [hp] at hpy
          simp only [Except.ok.injEq, Prod.mk.injEq] at hpy
          have hcx := hc.cxx
          unfold Controller.make at hcx
          rw [show Cxx.makeQuery [] cx.options.query_format = _ from ha [] (by simp)] at hcx
          simp only [List.nil_append, fit] at hcx
          have hcx' : cx.queryFrame = qb ∧ cx.queryReplySize = n := by
            split at hcx
            · cases hcx
            · simp only [Except.map, Except.ok.injEq] at hcx
              rw [← hcx]
              exact ⟨rfl, Nat.mod_eq_of_lt hn⟩
          rw [hdq, hcx'.1, hcx'.2]
          simp only [Controller.formatQuery, ← hpy.1, ← hpy.2, bind, Except.bind]
          cases query with
          | true =>
            simp only [if_true]
            by_cases hl : 64 < b.length + qb.length
            · rw [if_pos hl]
              constructor
              · intro h; cases h
              · rintro ⟨c, h, h2, _⟩
                cases h
                simp only [List.length_append] at *
                omega
            · rw [if_neg hl]
              constructor
              · intro h
                cases h
                refine ⟨_, rfl, by simpa using hl, ?_⟩
                simp [asFrame, Controller.makeCommand, hid]
              · rintro ⟨c, h, h2, rfl⟩
                cases h
                simp [asFrame, Controller.makeCommand, hid]
          | false =>
            simp only [Bool.false_eq_true, if_false]
            constructor
            · intro h
              cases h
              refine ⟨_, rfl, by simpa using hb, ?_⟩
              simp [asFrame, Controller.makeCommand, hid]
            · rintro ⟨c, h, h2, rfl⟩
              cases h
              simp [asFrame, Controller.makeCommand, hid]

end Verif.Cxx
