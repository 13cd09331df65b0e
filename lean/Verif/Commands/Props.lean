import Verif.Commands.QueryLemmas

/-! # Properties C11, C12, C14 -/

namespace Verif.Commands

open Verif Verif.Float Verif.Multiplex Verif.Multiplex.Spec Verif.Commands.Spec

theorem modeWrite_ok {m : Nat} (h : m < 128) :
    modeWrite m = .ok ([0x01] ++ writeVaruint 0x000 ++ [UInt8.ofNat m]) := by
  unfold modeWrite
  rw [show (0x00 ||| 0x01 : Nat) = 1 from rfl, writeInt8_ok (by decide), writeInt8_ok (by decide),
    writeInt8_ok h, writeVaruint_small (by decide)]
  rfl

theorem modePiece (m : UInt8) : WritePiece ([0x01] ++ writeVaruint 0x000 ++ [m]) (setMode m) :=
  writePiece_int8 (by decide) m

/-- Common part of all commands that consist of a head and one run of the
combiner. -/
theorem realize (c : Controller) (hc : c.Constructed) (query : Bool)
    (override : Option QueryResolution) (hq : QueryOk c override) (head : Bytes)
    (first : List Access) (hf : WritePiece head first) (start : Nat) (ps : List Param) (es : List Entry)
    (hreg : ps.map Param.register = List.range' start ps.length)
    (hes : List.Forall₂ EntryFor ps es) (hd : Doubles ps) (hlen : es.length < 128)
    (hst : start + es.length ≤ 2 ^ 35) :
    Realizes c query override (do
      let w ← (WriteCombiner.init head 0x00 start (es.map Prod.fst)).run (es.map Prod.snd)
      c.formatQuery query override w.buf (c.makeCommand query override)) first ps := by
  rcases build_params head start ps es hreg hes hd hlen hst with ⟨h1, h2⟩ | ⟨h1, w, body, ws, h2, h3, h4, h5⟩
  · left
    exact ⟨h1, by rw [h2]; rfl⟩
  · right
    obtain ⟨cmd, h6, h7⟩ := formatQuery_ok c hc query override hq (head ++ body) (first ++ ws) (hf.append h5)
    refine ⟨h1, cmd, ws, ?_, h4, h7⟩
    rw [h2]
    simp only [bind, Except.bind, h3]
    exact h6

theorem entryFor_mk (p : Param) : EntryFor p (sel p.res p.value, writeMapped p.kind p.value p.res) :=
  ⟨rfl, fun r x h1 h2 => by simp [h1, h2]⟩

theorem int_bytes_roundtrip (n : Nat) (v : Int) (hn : 0 < n) (h1 : -(2 ^ (8 * n - 1) : Int) ≤ v)
    (h2 : v < (2 ^ (8 * n - 1) : Int)) : toSigned n (leNat (leBytes n (ofSigned n v))) = v := by
  rw [leNat_leBytes, Nat.mod_eq_of_lt (ofSigned_lt n v)]
  exact toSigned_ofSigned hn h1 h2

/-! ## C11 -/

/-- C11, everything but the scale of `ilimit_scale` at an integer resolution
(see `C11_ilimit_scale_refuted`): the frame of a position command decodes to
the mode write, then exactly the supplied parameters at their registers,
resolutions and scales, then the requested reads. -/
theorem C11_position_partial (c : Controller) (hc : c.Constructed) (a : PositionArgs) (query : Bool)
    (override : Option QueryResolution) (hq : QueryOk c override)
    (hd : Doubles (positionParams c.position_resolution a))
    (hil : a.ilimit_scale = none ∨ c.position_resolution.ilimit_scale = none ∨
      c.position_resolution.ilimit_scale = some .f32) :
    Realizes c query override (c.makePosition a query override) (setMode 10)
      (positionParams c.position_resolution a) := by
  have h := realize c hc query override hq _ _ (modePiece 10) 0x020
    (positionParams c.position_resolution a)
    ((positionResolutions c.position_resolution a).zip (positionWrites c.position_resolution a))
    rfl ?_ hd (by simp [positionResolutions, positionWrites])
    (by simp [positionResolutions, positionWrites])
  · unfold Controller.makePosition
    rw [modeWrite_ok (by decide)]
    exact h
  · unfold positionParams positionResolutions positionWrites
    simp only [List.zip_cons_cons, List.zip_nil_right]
    iterate 11 refine List.Forall₂.cons (entryFor_mk _) ?_
    refine List.Forall₂.cons ?_ List.Forall₂.nil
    refine ⟨rfl, ?_⟩
    intro r x h1 h2
    simp only at h1 h2
    rcases hil with h | h | h
    · rw [h] at h2; simp at h2
    · rw [h] at h1; simp at h1
    · rw [h] at h1
      simp only [Option.some.injEq] at h1
      subst h1
      rw [h2, h]
      rfl

/-- A controller with the library defaults except for the resolution of
`ilimit_scale`. -/
def exampleController (il : Option Res) : Controller where
  id := 1
  query_resolution := .default
  position_resolution :=
    { position := some .f32, velocity := some .f32, feedforward_torque := some .f32,
      kp_scale := some .f32, kd_scale := some .f32, maximum_torque := some .f32,
      stop_position := some .f32, watchdog_timeout := some .f32, velocity_limit := some .f32,
      accel_limit := some .f32, fixed_voltage_override := some .f32, ilimit_scale := il }
  vfoc_resolution := ⟨some .f32, some .f32, some .f32⟩
  current_resolution := ⟨some .f32, some .f32⟩
  pwm_resolution := ⟨List.replicate 10 (some .int16), rfl⟩
  queryData := [0x11, 0x00, 0x1f, 0x01, 0x13, 0x0d]
  queryReplySize := 22

theorem exampleController_constructed (il : Option Res) : (exampleController il).Constructed := by
  have : makeQueryData .default = .ok ([0x11, 0x00, 0x1f, 0x01, 0x13, 0x0d], 22) := by decide +kernel
  exact this

theorem dictOk_nil : DictOk [] :=
  ⟨List.nodup_nil, by simp, by rintro ⟨s, r, h⟩; have := h 0 (by omega); simp at this⟩

theorem exampleController_queryOk (il : Option Res) : QueryOk (exampleController il) none :=
  ⟨dictOk_nil, by simp⟩

/-- Non-trivial hypotheses of `C11_position_partial`: a position and a
velocity are supplied. -/
example : (exampleController (some .f32)).Constructed ∧ QueryOk (exampleController (some .f32)) none ∧
    Doubles (positionParams (exampleController (some .f32)).position_resolution
      { position := some (.fin (1/2)), velocity := some .nan }) := by
  refine ⟨exampleController_constructed _, exampleController_queryOk _, ?_⟩
  intro p hp x hx
  simp only [positionParams, List.mem_cons, List.mem_nil_iff, or_false] at hp
  rcases hp with rfl | rfl | rfl | rfl | rfl | rfl | rfl | rfl | rfl | rfl | rfl | rfl <;>
    simp at hx <;> subst hx
  · show b64.round _ = .fin _
    decide +kernel
  · trivial

/-- C11 fails for `ilimit_scale` at an integer resolution: 0.5 at INT8 is
written as 1 (the voltage scale) where the documented PWM scale needs 63. -/
theorem C11_ilimit_scale_refuted :
    ¬ ∀ (c : Controller) (_ : c.Constructed) (a : PositionArgs) (query : Bool)
      (override : Option QueryResolution) (_ : QueryOk c override)
      (_ : Doubles (positionParams c.position_resolution a)),
      Realizes c query override (c.makePosition a query override) (setMode 10)
        (positionParams c.position_resolution a) := by
  intro h
  have hd : Doubles (positionParams (exampleController (some .int8)).position_resolution
      { ilimit_scale := some (.fin (1/2)) }) := by
    intro p hp x hx
    simp only [positionParams, List.mem_cons, List.mem_nil_iff, or_false] at hp
    rcases hp with rfl | rfl | rfl | rfl | rfl | rfl | rfl | rfl | rfl | rfl | rfl | rfl <;>
      simp at hx
    subst hx
    show b64.round _ = .fin _
    decide +kernel
  have h1 := h (exampleController (some .int8)) (exampleController_constructed _)
    { ilimit_scale := some (.fin (1/2)) } false none (exampleController_queryOk _) hd
  have hcmd : (exampleController (some .int8)).makePosition
      { ilimit_scale := some (.fin (1/2)) } false none =
      .ok ⟨1, 0, false, 0, [0x01, 0x00, 0x0a, 0x01, 0x2b, 0x01]⟩ := by decide +kernel
  rw [hcmd] at h1
  rcases h1 with ⟨_, h2⟩ | ⟨_, cmd, ws, h2, h3, h4⟩
  · simp at h2
  · simp only [Except.ok.injEq] at h2
    subst h2
    obtain ⟨_, _, _, ⟨reads, h5, h6⟩, _⟩ := h4
    have h5' : reads = [] := h5
    subst h5'
    have h7 : accesses [0x01, 0x00, 0x0a, 0x01, 0x2b, 0x01] =
        some [.write 0 .int8 [0x0a], .write 0x2b .int8 [0x01]] := by decide +kernel
    rw [h7] at h6
    simp only [List.append_nil, setMode, List.cons_append, List.nil_append, Option.some.injEq,
      List.cons.injEq] at h6
    rw [← h6.2] at h3
    unfold Writes at h3
    have h8 : (positionParams (exampleController (some .int8)).position_resolution
        { ilimit_scale := some (.fin (1/2)) }).filterMap Param.sent =
        [⟨0x02b, .pwm, .int8, .fin (1/2)⟩] := rfl
    rw [h8] at h3
    cases h3 with
    | cons h9 _ =>
      obtain ⟨b, h10, h11⟩ := h9
      simp only [Access.write.injEq, true_and] at h10
      subst h10
      obtain ⟨_, h12⟩ := h11
      simp only [CarriesInt] at h12
      have h13 := h12.1 (by decide +kernel)
      revert h13
      decide +kernel

/-! ## C12 -/

/-- C12, stop. -/
theorem C12_stop (c : Controller) (hc : c.Constructed) (query : Bool)
    (override : Option QueryResolution) (hq : QueryOk c override) :
    ∃ cmd, c.makeStop query override = .ok cmd ∧ Delivers c query override cmd (setMode 0) := by
  unfold Controller.makeStop
  rw [modeWrite_ok (by decide)]
  exact formatQuery_ok c hc query override hq _ _ (modePiece 0)

/-- C12, brake. -/
theorem C12_brake (c : Controller) (hc : c.Constructed) (query : Bool)
    (override : Option QueryResolution) (hq : QueryOk c override) :
    ∃ cmd, c.makeBrake query override = .ok cmd ∧ Delivers c query override cmd (setMode 15) := by
  unfold Controller.makeBrake
  rw [modeWrite_ok (by decide)]
  exact formatQuery_ok c hc query override hq _ _ (modePiece 15)

/-- C12, stay within.  (The argument `stop_position` has no register in this
mode and is not sent.) -/
theorem C12_stay_within (c : Controller) (hc : c.Constructed) (a : WithinArgs) (query : Bool)
    (override : Option QueryResolution) (hq : QueryOk c override)
    (hd : Doubles (withinParams c.position_resolution a)) :
    Realizes c query override (c.makeStayWithin a query override) (setMode 13)
      (withinParams c.position_resolution a) := by
  have h := realize c hc query override hq _ _ (modePiece 13) 0x040
    (withinParams c.position_resolution a)
    ((withinResolutions c.position_resolution a).zip (withinWrites c.position_resolution a))
    rfl ?_ hd (by simp [withinResolutions, withinWrites])
    (by simp [withinResolutions, withinWrites])
  · unfold Controller.makeStayWithin
    rw [modeWrite_ok (by decide)]
    exact h
  · unfold withinParams withinResolutions withinWrites
    simp only [List.zip_cons_cons, List.zip_nil_right]
    repeat' first
      | exact List.Forall₂.nil
      | refine List.Forall₂.cons (entryFor_mk _) ?_

theorem mathPi_gt : (1 : ℚ) < mathPi := by unfold mathPi; norm_num

/-- Division by pi of a double does not overflow. -/
theorem divPi_eq (x : Option Fl) (hx : ∀ v, x = some v → IsDouble v) : divPi x = x.map inPi := by
  cases x with
  | none => rfl
  | some v =>
    cases v with
    | nan => rfl
    | inf n => rfl
    | fin q =>
      have h := hx _ rfl
      simp only [IsDouble, Fmt.round] at h
      split at h
      · next hlt =>
        simp only [Fl.fin.injEq] at h
        have hab : |q / mathPi| ≤ |q| := by
          rw [abs_div, abs_of_pos (by linarith [mathPi_gt] : (0:ℚ) < mathPi)]
          exact div_le_self (abs_nonneg _) mathPi_gt.le
        have hqa : b64.roundQ |q| = |q| := by
          rcases abs_cases q with ⟨h1, _⟩ | ⟨h1, _⟩ <;> rw [h1]
          · exact h
          · rw [roundQ_neg, h]
        have hle : |b64.roundQ (q / mathPi)| ≤ |q| := by
          rw [abs_le] at hab ⊢
          constructor
          · exact le_roundQ_of_le (by decide) (by rw [roundQ_neg, hqa]) hab.1
          · exact roundQ_le_of_le (by decide) hqa hab.2
        have : |b64.roundQ (q / mathPi)| < pow2 b64.emax := by
          rw [h] at hlt
          exact lt_of_le_of_lt hle hlt
        simp [divPi, divF, Fmt.round, this, inPi]
      · simp at h

theorem inPi_double {x : Fl} (h : IsDouble x) : IsDouble (inPi x) := by
  cases x with
  | nan => trivial
  | inf n => trivial
  | fin q =>
    have h1 := divPi_eq (some (.fin q)) (by intro v hv; simp only [Option.some.injEq] at hv; rw [← hv]; exact h)
    simp only [divPi, Option.map_some, Option.some.injEq] at h1
    simp only [inPi] at h1 ⊢
    simp only [divF, Fmt.round] at h1
    split at h1
    · next hlt =>
      show b64.round (b64.roundQ (q / mathPi)) = _
      unfold Fmt.round
      rw [roundQ_idem (by decide), if_pos hlt]
    · simp at h1

/-- C12, voltage FOC. -/
theorem C12_vfoc (c : Controller) (hc : c.Constructed) (a : VFOCArgs) (query : Bool)
    (override : Option QueryResolution) (hq : QueryOk c override)
    (ht : ∀ v, a.theta = some v → IsDouble v) (hv : ∀ v, a.voltage = some v → IsDouble v)
    (hr : ∀ v, a.theta_rate = some v → IsDouble v) :
    Realizes c query override (c.makeVfoc a query override) (setMode 7)
      (vfocParams c.vfoc_resolution a) := by
  have ha := And.intro ht hr
  have hd : Doubles (vfocParams c.vfoc_resolution a) := by
    intro p hp x hx
    have aux : ∀ (o : Option Fl), (∀ v, o = some v → IsDouble v) → ∀ y, o.map inPi = some y → IsDouble y := by
      intro o ho y hy
      obtain ⟨v, h1, rfl⟩ := Option.map_eq_some_iff.mp hy
      exact inPi_double (ho v h1)
    simp only [vfocParams, List.mem_cons, List.mem_nil_iff, or_false] at hp
    rcases hp with rfl | rfl | rfl
    · exact aux _ ht x hx
    · exact hv x hx
    · simp only at hx
      split at hx
      · simp at hx
      · exact aux _ hr x hx
  let ps : List Param :=
    [ ⟨0x018, .pwm, c.vfoc_resolution.theta, a.theta.map inPi⟩,
      ⟨0x019, .voltage, c.vfoc_resolution.voltage, a.voltage⟩,
      ⟨0x01a, .pwm, none, none⟩, ⟨0x01b, .pwm, none, none⟩,
      ⟨0x01c, .pwm, none, none⟩, ⟨0x01d, .pwm, none, none⟩,
      ⟨0x01e, .velocity, c.vfoc_resolution.theta_rate,
        if a.theta_rate = some (.fin 0) then none else a.theta_rate.map inPi⟩ ]
  have hsent : ps.filterMap Param.sent = (vfocParams c.vfoc_resolution a).filterMap Param.sent := by
    have hn : ∀ r k, Param.sent ⟨r, k, none, none⟩ = none := fun _ _ => rfl
    simp only [ps, vfocParams, List.filterMap_cons, hn]
  have hd' : Doubles ps := by
    intro p hp x hx
    simp only [ps, List.mem_cons, List.mem_nil_iff, or_false] at hp
    rcases hp with rfl | rfl | rfl | rfl | rfl | rfl | rfl
    · exact hd _ (by simp [vfocParams]) x hx
    · exact hd _ (by simp [vfocParams]) x hx
    · simp at hx
    · simp at hx
    · simp at hx
    · simp at hx
    · exact hd _ (by simp [vfocParams]) x hx
  have h := realize c hc query override hq _ _ (modePiece 7) 0x018 ps
    ((vfocResolutions c.vfoc_resolution a).zip (vfocWrites c.vfoc_resolution a))
    rfl ?_ hd' (by simp [vfocResolutions, vfocWrites])
    (by simp [vfocResolutions, vfocWrites])
  · have h' : Realizes c query override (c.makeVfoc a query override) (setMode 7) ps := by
      unfold Controller.makeVfoc
      rw [modeWrite_ok (by decide)]
      exact h
    unfold Realizes SomeTooLarge Writes at h' ⊢
    rw [hsent] at h'
    exact h'
  · simp only [ps, vfocResolutions, vfocWrites, List.zip_cons_cons, List.zip_nil_right,
      divPi_eq _ ha.1, divPi_eq _ ha.2]
    have hnone : ∀ r w, EntryFor ⟨r, .pwm, none, none⟩ (none, w) := by
      intro r w; exact ⟨rfl, by simp⟩
    refine List.Forall₂.cons ?_ (.cons (entryFor_mk _) (.cons (hnone _ _) (.cons (hnone _ _)
      (.cons (hnone _ _) (.cons (hnone _ _) (.cons ?_ .nil))))))
    · refine ⟨?_, fun r x h1 h2 => by simp only at h1 h2; simp only [h1, h2]⟩
      simp [sel]
    · refine ⟨?_, ?_⟩
      · by_cases h0 : a.theta_rate = some (.fin 0)
        · simp [h0, sel]
        · cases hr : a.theta_rate with
          | none => simp [sel]
          | some v => rw [hr] at h0; simp [sel, h0]
      · intro r x h1 h2
        simp only at h1 h2
        split at h2
        · simp at h2
        · simp only [h1, h2]

/-- C12, current, everything but (see `C12_current_refuted`): the two
resolutions differ, or only one of the currents is given. -/
theorem C12_current_partial (c : Controller) (hc : c.Constructed) (d_A q_A : Option Fl) (query : Bool)
    (override : Option QueryResolution) (hq : QueryOk c override)
    (hd : Doubles (currentParams c.current_resolution d_A q_A))
    (hboth : d_A.isSome = q_A.isSome) (hres : c.current_resolution.d_A = c.current_resolution.q_A) :
    Realizes c query override (c.makeCurrent d_A q_A query override) (setMode 9)
      (currentParams c.current_resolution d_A q_A) := by
  have h := realize c hc query override hq _ _ (modePiece 9) 0x01c
    (currentParams c.current_resolution d_A q_A)
    [(sel c.current_resolution.d_A d_A, writeMapped .current q_A c.current_resolution.q_A),
     (sel c.current_resolution.q_A q_A, writeMapped .current d_A c.current_resolution.d_A)]
    rfl ?_ hd (by simp) (by simp)
  · unfold Controller.makeCurrent
    rw [modeWrite_ok (by decide)]
    exact h
  · have hsel : sel c.current_resolution.d_A d_A = sel c.current_resolution.q_A q_A := by
      unfold sel; rw [hboth, hres]
    rw [hsel]
    refine .cons (entryFor_mk _) (.cons ?_ .nil)
    refine ⟨?_, fun r x h1 h2 => by simp only at h1 h2; rw [h1, h2]⟩
    exact hsel.symm

/-- C12 fails for the current command: with INT8 configured for d and INT16
for q the q current is sent in a field announced as INT8, and the command the
controller decodes is another one. With only the q current given the call
raises `TypeError`. -/
theorem C12_current_refuted :
    (∃ (c : Controller) (d q : Option Fl), c.Constructed ∧ QueryOk c none ∧
      Doubles (currentParams c.current_resolution d q) ∧
      ¬ Realizes c false none (c.makeCurrent d q false none) (setMode 9)
        (currentParams c.current_resolution d q)) ∧
    (∃ (c : Controller) (q : Option Fl), c.Constructed ∧ QueryOk c none ∧
      c.makeCurrent none q false none = .error .typeError) := by
  constructor
  · refine ⟨{ exampleController none with current_resolution := ⟨some .int8, some .int16⟩ },
      some (.fin 0), some (.fin 1), exampleController_constructed none,
      exampleController_queryOk none, ?_, ?_⟩
    · intro p hp x hx
      simp only [currentParams, List.mem_cons, List.mem_nil_iff, or_false] at hp
      rcases hp with rfl | rfl <;> simp at hx <;> subst hx <;> (show b64.round _ = .fin _) <;>
        decide +kernel
    · have hcmd : Controller.makeCurrent
          { exampleController none with current_resolution := ⟨some .int8, some .int16⟩ }
          (some (.fin 0)) (some (.fin 1)) false none =
          .ok ⟨1, 0, false, 0, [0x01, 0x00, 0x09, 0x01, 0x1c, 0x0a, 0x00, 0x05, 0x1d, 0x00]⟩ := by
        decide +kernel
      rw [hcmd]
      rintro (⟨_, h2⟩ | ⟨_, cmd, ws, h2, h3, h4⟩)
      · simp at h2
      · simp only [Except.ok.injEq] at h2
        subst h2
        obtain ⟨_, _, _, ⟨reads, h5, h6⟩, _⟩ := h4
        have h7 : accesses [0x01, 0x00, 0x09, 0x01, 0x1c, 0x0a, 0x00, 0x05, 0x1d, 0x00] = none := by
          decide +kernel
        rw [h7] at h6
        simp at h6
  · exact ⟨exampleController none, some (.fin 1), exampleController_constructed none,
      exampleController_queryOk none, by decide +kernel⟩

theorem realize_value (c : Controller) (hc : c.Constructed) (query : Bool)
    (override : Option QueryResolution) (hq : QueryOk c override) (x : Fl) (hx : IsDouble x)
    (cmd : Nat) (hcmd : cmd < 2 ^ 35) :
    Realizes c query override (c.makeSetOutput x cmd query override) []
      [⟨cmd, .position, some .f32, some x⟩] := by
  have hw : writeF32 x = writeMapped .position (some x) (some .f32) := by
    simp [writeMapped, saturateF32_double hx]
  have hhead : writeInt8 (0x0c ||| 0x01) = .ok [0x0d] := writeInt8_ok (by decide)
  have hsent : [(⟨cmd, .position, some .f32, some x⟩ : Param)].filterMap Param.sent =
      [⟨cmd, .position, .f32, x⟩] := rfl
  rcases writeMapped_cases .position x .f32 hx with ⟨h1, b, h2, h3⟩ | ⟨h1, h2⟩
  · right
    have hp := writePiece_value .f32 hcmd b h3.1
    obtain ⟨r, h4, h5⟩ := formatQuery_ok c hc query override hq _ _ hp
    refine ⟨?_, r, [.write cmd .f32 b], ?_, ?_, h5⟩
    · rintro ⟨s, hs, ht⟩
      rw [hsent] at hs
      simp only [List.mem_singleton] at hs
      subst hs
      exact h1 ht
    · unfold Controller.makeSetOutput
      rw [hhead, hw, h2]
      exact h4
    · unfold Writes
      rw [hsent]
      exact .cons ⟨b, rfl, h3⟩ .nil
  · left
    refine ⟨⟨⟨cmd, .position, .f32, x⟩, by rw [hsent]; exact List.mem_singleton.mpr rfl, h1⟩, ?_⟩
    unfold Controller.makeSetOutput
    rw [hhead, hw, h2]
    rfl

/-- C12, the set output commands and rezero. -/
theorem C12_set_output (c : Controller) (hc : c.Constructed) (query : Bool)
    (override : Option QueryResolution) (hq : QueryOk c override) (x : Fl) (hx : IsDouble x) :
    Realizes c query override (c.makeSetOutputNearest x query override) []
      [⟨0x130, .position, some .f32, some x⟩] ∧
    Realizes c query override (c.makeSetOutputExact x query override) []
      [⟨0x131, .position, some .f32, some x⟩] ∧
    Realizes c query override (c.makeRezero x query override) []
      [⟨0x130, .position, some .f32, some x⟩] :=
  ⟨realize_value c hc query override hq x hx _ (by decide),
   realize_value c hc query override hq x hx _ (by decide),
   realize_value c hc query override hq x hx _ (by decide)⟩

/-- C12, require reindex and recapture: exactly one write; a requested query
is never sent. -/
theorem C12_reindex_recapture (c : Controller) (query : Bool) (override : Option QueryResolution) :
    (∃ cmd, c.makeRequireReindex query override = .ok cmd ∧
      accesses cmd.data = some [.write 0x132 .int8 [1]]) ∧
    (∃ cmd, c.makeRecapture query override = .ok cmd ∧
      accesses cmd.data = some [.write 0x133 .int8 [1]]) := by
  have h1 : writeInt8 (0x00 ||| 0x01) = .ok [0x01] := writeInt8_ok (by decide)
  have h2 : writeInt8 1 = .ok [0x01] := writeInt8_ok (by decide)
  have aux : ∀ reg, reg < 2 ^ 35 →
      accesses ([0x01] ++ writeVaruint reg ++ [0x01]) = some [.write reg .int8 [1]] := by
    intro reg hr
    have := (writePiece_int8 hr 1).1 []
    rw [List.append_nil] at this
    rw [this]; simp [accesses, decode_nil]
  constructor
  · refine ⟨{ c.makeCommand query override with data := [0x01] ++ writeVaruint 0x132 ++ [0x01] },
      ?_, aux 0x132 (by decide)⟩
    · unfold Controller.makeRequireReindex
      rw [h1, h2]; rfl
  · refine ⟨{ c.makeCommand query override with data := [0x01] ++ writeVaruint 0x133 ++ [0x01] },
      ?_, aux 0x133 (by decide)⟩
    · unfold Controller.makeRecapture
      rw [h1, h2]; rfl

/-- C12 fails for require reindex and recapture when a query is asked for:
the command announces a reply of the size of the default query, but it
contains no query and is not answered. -/
theorem C12_reindex_query_refuted :
    ∃ (c : Controller) (cmd : Command), c.Constructed ∧ QueryOk c none ∧
      c.makeRequireReindex true none = .ok cmd ∧ c.makeRecapture true none =
        .ok { cmd with data := [0x01, 0xb3, 0x02, 0x01] } ∧
      cmd.replyRequired = true ∧ cmd.expectedReplySize = 22 ∧
      ∀ regs, answer regs cmd.data = some [] := by
  refine ⟨exampleController none, ⟨1, 0, true, 22, [0x01, 0xb2, 0x02, 0x01]⟩,
    exampleController_constructed none, exampleController_queryOk none,
    by decide +kernel, by decide +kernel, rfl, rfl, ?_⟩
  intro regs
  have : decode [0x01, 0xb2, 0x02, 0x01] = some [.write .int8 0x132 [[1]]] := by decide +kernel
  unfold answer
  rw [this]
  rfl

/-- C12, clock trim: one write of the signed 32 bit value, or an error when
it does not fit. -/
theorem C12_set_trim (c : Controller) (trim : Int) :
    (-(2 ^ 31) ≤ trim ∧ trim < 2 ^ 31 → ∃ cmd b, c.makeSetTrim trim = .ok cmd ∧
      cmd.replyRequired = false ∧ cmd.destination = c.id ∧
      accesses cmd.data = some [.write 0x071 .int32 b] ∧ toSigned 4 (leNat b) = trim) ∧
    (¬ (-(2 ^ 31) ≤ trim ∧ trim < 2 ^ 31) → c.makeSetTrim trim = .error .structError) := by
  have h1 : writeInt8 (0x08 ||| 0x01) = .ok [0x09] := writeInt8_ok (by decide)
  constructor
  · intro h
    have hr : -(2 ^ (8 * Res.int32.size - 1) : Int) ≤ trim ∧ trim < (2 ^ (8 * Res.int32.size - 1) : Int) := by
      simpa [Res.size] using h
    have h2 : packInt .int32 trim = .ok (leBytes 4 (ofSigned 4 trim)) := by
      unfold packInt; rw [if_pos hr]; rfl
    refine ⟨{ c.makeCommand false none with
        data := [0x09] ++ writeVaruint 0x071 ++ leBytes 4 (ofSigned 4 trim) },
      leBytes 4 (ofSigned 4 trim), ?_, rfl, rfl, ?_, ?_⟩
    · unfold Controller.makeSetTrim
      rw [h1, h2]; rfl
    · have := (writePiece_value .int32 (reg := 0x071) (by decide) (leBytes 4 (ofSigned 4 trim))
        (by simp [Res.size])).1 []
      rw [List.append_nil] at this
      have h3 : [UInt8.ofNat (Res.int32.commandBits + 1)] = [(0x09 : UInt8)] := rfl
      rw [h3] at this
      simp only
      rw [this]; simp [accesses, decode_nil]
    · obtain ⟨b, hb, _, hu⟩ : ∃ b, packInt .int32 trim = .ok b ∧ b.length = 4 ∧ unpackInt .int32 b = trim := by
        refine ⟨_, h2, by simp, ?_⟩
        exact int_bytes_roundtrip 4 trim (by decide) (by simpa using h.1) (by simpa using h.2)
      rw [h2] at hb
      cases hb
      exact hu
  · intro h
    unfold Controller.makeSetTrim
    have h2 : packInt .int32 trim = .error .structError := by
      unfold packInt; rw [if_neg]; simpa [Res.size] using h
    rw [h1, h2]; rfl

/-- C12, aux PWM. -/
theorem C12_aux_pwm (c : Controller) (hc : c.Constructed) (args : List (Option Fl)) (query : Bool)
    (override : Option QueryResolution) (hq : QueryOk c override) (hlen : args.length = 10)
    (hd : Doubles (auxPwmParams c.pwm_resolution args)) :
    Realizes c query override (c.makeAuxPwm args query override) []
      (auxPwmParams c.pwm_resolution args) := by
  have h := realize c hc query override hq [] [] WritePiece.nil 0x076
    (auxPwmParams c.pwm_resolution args)
    ((c.pwm_resolution.aux.zip args).map fun x => (sel x.1 x.2, writeMapped .pwm x.2 x.1))
    ?_ ?_ hd (by simp [c.pwm_resolution.ten, hlen]) (by simp [c.pwm_resolution.ten, hlen])
  · unfold Controller.makeAuxPwm
    simp only [List.map_map, Function.comp_def] at h
    exact h
  · unfold auxPwmParams
    have : ∀ (l : List (Option Res × Option Fl)) (s k : Nat),
        (((l.zipIdx k).map fun x => (⟨s + x.2, .pwm, x.1.1, x.1.2⟩ : Param)).map Param.register) =
          List.range' (s + k) l.length := by
      intro l
      induction l with
      | nil => simp
      | cons x l ih => intro s k; simp [List.range'_succ, Nat.add_assoc] at ih ⊢; rw [ih]
    have h2 := this (c.pwm_resolution.aux.zip args) 0x076 0
    rw [h2]; simp
  · unfold auxPwmParams
    have : ∀ (l : List (Option Res × Option Fl)) (k : Nat), List.Forall₂ EntryFor
        ((l.zipIdx k).map fun x => (⟨0x076 + x.2, .pwm, x.1.1, x.1.2⟩ : Param))
        (l.map fun x => (sel x.1 x.2, writeMapped .pwm x.2 x.1)) := by
      intro l
      induction l with
      | nil => intro k; exact .nil
      | cons x l ih =>
        intro k
        simp only [List.zipIdx_cons, List.map_cons]
        exact .cons (entryFor_mk _) (ih _)
    exact this _ 0

/-- The writes asked for by the GPIO command. -/
def gpioWrites (aux1 aux2 : Option Int) (l : List Access) : Prop :=
  List.Forall₂ (fun (x : Nat × Int) a => ∃ b, a = .write x.1 .int8 b ∧ toSigned 1 (leNat b) = x.2)
    (((aux1.map fun v => (0x05c, v)).toList) ++ ((aux2.map fun v => (0x05d, v)).toList)) l

/-- C12, GPIO write: one write for each given port, as long as the values are
in the range of a signed byte; otherwise `struct.error`. -/
theorem C12_write_gpio (c : Controller) (hc : c.Constructed) (aux1 aux2 : Option Int) (query : Bool)
    (override : Option QueryResolution) (hq : QueryOk c override) :
    ((∀ v, aux1 = some v ∨ aux2 = some v → -128 ≤ v ∧ v < 128) →
      ∃ cmd ws, c.makeWriteGpio aux1 aux2 query override = .ok cmd ∧ gpioWrites aux1 aux2 ws ∧
        Delivers c query override cmd ws) ∧
    (¬ (∀ v, aux1 = some v ∨ aux2 = some v → -128 ≤ v ∧ v < 128) →
      c.makeWriteGpio aux1 aux2 query override = .error .structError) := by
  let es : List Entry := [(if aux1.isSome then some .int8 else none, writeInt8Opt aux1),
    (if aux2.isSome then some .int8 else none, writeInt8Opt aux2)]
  have hin : ∀ v : Int, -128 ≤ v ∧ v < 128 → packInt .int8 v = .ok (leBytes 1 (ofSigned 1 v)) := by
    intro v h
    unfold packInt
    rw [if_pos (by simpa [Res.size] using h)]; rfl
  have hout : ∀ v : Int, ¬ (-128 ≤ v ∧ v < 128) → packInt .int8 v = .error .structError := by
    intro v h
    unfold packInt
    rw [if_neg (by simpa [Res.size] using h)]
  have hrt : ∀ v : Int, -128 ≤ v ∧ v < 128 → toSigned 1 (leNat (leBytes 1 (ofSigned 1 v))) = v := by
    intro v h
    exact int_bytes_roundtrip 1 v (by decide) (by simpa using h.1) (by simpa using h.2)
  constructor
  · intro hr
    have hall : ∀ e ∈ es, ∀ r, e.1 = some r → ∃ b, e.2 = .ok b := by
      intro e he r h1
      simp only [es, List.mem_cons, List.mem_nil_iff, or_false] at he
      rcases he with rfl | rfl
      · cases aux1 with
        | none => simp at h1
        | some v => exact ⟨_, hin v (hr v (Or.inl rfl))⟩
      · cases aux2 with
        | none => simp at h1
        | some v => exact ⟨_, hin v (hr v (Or.inr rfl))⟩
    obtain ⟨w, h2, h3⟩ := run_entries (Or.inl rfl) [] 0x05c es (by simp [es]) hall
    have hsz : SizesOk (es.map itemOf) := by
      intro r v h
      simp only [es, List.map_cons, List.map_nil, List.mem_cons, List.mem_nil_iff, or_false, itemOf] at h
      cases aux1 <;> cases aux2 <;> simp_all [writeInt8Opt] <;>
        (try rcases h with ⟨rfl, rfl⟩ | ⟨rfl, rfl⟩) <;> (try simp [Res.size])
      all_goals obtain ⟨rfl, rfl⟩ := h; simp [Res.size]
    have hp := writePiece_enc (es.map itemOf) 0x05c hsz (by simp [es]) (by simp [es])
    obtain ⟨cmd, h4, h5⟩ := formatQuery_ok c hc query override hq _ _ hp
    refine ⟨cmd, _, ?_, ?_, h5⟩
    · unfold Controller.makeWriteGpio
      have h2' : (WriteCombiner.init [] 0x00 0x05c
          [if aux1.isSome then some .int8 else none, if aux2.isSome then some .int8 else none]).run
          [writeInt8Opt aux1, writeInt8Opt aux2] = .ok w := h2
      rw [h2']
      simp only [bind, Except.bind, h3, List.nil_append]
      exact h4
    · unfold gpioWrites
      cases aux1 with
      | none =>
        cases aux2 with
        | none => simp [es, itemOf, wantedValues]
        | some v =>
          have hv := hr v (Or.inr rfl)
          simp only [es, itemOf, writeInt8Opt, hin v hv, List.map_cons, List.map_nil]
          exact .cons ⟨_, rfl, hrt v hv⟩ .nil
      | some u =>
        have hu := hr u (Or.inl rfl)
        cases aux2 with
        | none =>
          simp only [es, itemOf, writeInt8Opt, hin u hu, List.map_cons, List.map_nil]
          exact .cons ⟨_, rfl, hrt u hu⟩ .nil
        | some v =>
          have hv := hr v (Or.inr rfl)
          simp only [es, itemOf, writeInt8Opt, hin u hu, hin v hv, List.map_cons, List.map_nil]
          exact .cons ⟨_, rfl, hrt u hu⟩ (.cons ⟨_, rfl, hrt v hv⟩ .nil)
  · intro hr
    push Not at hr
    have hall : ∀ e ∈ es, ∀ r, e.1 = some r → (∃ b, e.2 = .ok b) ∨ e.2 = .error .structError := by
      intro e he r h1
      have key : ∀ v : Int, (∃ b, packInt .int8 v = .ok b) ∨ packInt .int8 v = .error .structError := by
        intro v
        by_cases h : -128 ≤ v ∧ v < 128
        · exact Or.inl ⟨_, hin v h⟩
        · exact Or.inr (hout v h)
      simp only [es, List.mem_cons, List.mem_nil_iff, or_false] at he
      rcases he with rfl | rfl
      · cases aux1 with
        | none => simp at h1
        | some v => exact key v
      · cases aux2 with
        | none => simp at h1
        | some v => exact key v
    have hex : ∃ e ∈ es, ∃ r, e.1 = some r ∧ e.2 = .error .structError := by
      obtain ⟨v, hv, h2⟩ := hr
      have h3 := hout v (by omega)
      rcases hv with rfl | rfl
      · exact ⟨_, List.mem_cons_self, .int8, rfl, h3⟩
      · exact ⟨_, List.mem_cons_of_mem _ List.mem_cons_self, .int8, rfl, h3⟩
    have h2 := run_entries_err (Or.inl rfl) [] 0x05c es (by simp [es]) .structError hall hex
    unfold Controller.makeWriteGpio
    have h2' : (WriteCombiner.init [] 0x00 0x05c
        [if aux1.isSome then some .int8 else none, if aux2.isSome then some .int8 else none]).run
        [writeInt8Opt aux1, writeInt8Opt aux2] = .error .structError := h2
    rw [h2']; rfl

/-- A byte value above 127, such as the pins 0-7 of a port all set, cannot be
written (the Python code packs it as a signed byte). -/
example : (exampleController none).makeWriteGpio (some 255) none false none = .error .structError :=
  (C12_write_gpio _ (exampleController_constructed none) _ _ _ _ (exampleController_queryOk none)).2
    (by intro h; have := h 255 (Or.inl rfl); omega)

/-- C12, GPIO read: both status registers are read. -/
theorem C12_read_gpio (c : Controller) :
    ∃ cmd, c.makeReadGpio = .ok cmd ∧ cmd.destination = c.id ∧ cmd.replyRequired = true ∧
      accesses cmd.data = some [.read 0x05e .int8, .read 0x05f .int8] := by
  have h : queryBlock [] 0x05e [some .int8, some .int8] = .ok ([0x12, 0x5e], 4) := by decide +kernel
  refine ⟨{ c.makeCommand true none with data := [0x12, 0x5e] }, ?_, rfl, rfl, ?_⟩
  · unfold Controller.makeReadGpio
    rw [h]; rfl
  · show accesses [0x12, 0x5e] = _
    decide +kernel

/-- C07 fails for the GPIO read: the announced reply size is the one of the
default query. -/
theorem C07_read_gpio_refuted :
    ∃ (c : Controller) (cmd : Command), c.Constructed ∧ c.makeReadGpio = .ok cmd ∧
      cmd.expectedReplySize = 22 ∧
      ∀ regs : Nat → Res → Bytes, (∀ reg r, (regs reg r).length = r.size) →
        (answer regs cmd.data).map List.length = some 4 := by
  refine ⟨exampleController none, ⟨1, 0, true, 22, [0x12, 0x5e]⟩, exampleController_constructed none,
    by decide +kernel, rfl, ?_⟩
  intro regs hr
  have : decode [0x12, 0x5e] = some [.read .int8 0x5e 2] := by decide +kernel
  unfold answer
  rw [this]
  simp [answerSub, encVaruint, List.range_succ, hr, Res.size]

/-! ## C14 -/

/-- C14: the query command asks for exactly the configured standard registers
followed by the extra ones; the expected reply size is exact. -/
theorem C14_query (c : Controller) (hc : c.Constructed) (override : Option QueryResolution)
    (hq : QueryOk c override) :
    ∃ cmd, c.makeQuery override = .ok cmd ∧ Delivers c true override cmd [] := by
  obtain ⟨cmd, h1, h2⟩ := formatQuery_ok c hc true override hq [] [] WritePiece.nil
  refine ⟨cmd, ?_, h2⟩
  unfold Controller.formatQuery at h1
  unfold Controller.makeQuery
  cases override with
  | none => simpa using h1
  | some qr => simpa using h1

/-- C14: a custom query asks for exactly the given mapping, with the exact
expected reply size. -/
theorem C14_custom_query (c : Controller) (fields : List (Nat × Option Res)) (h : DictOk fields)
    (hne : fields ≠ []) :
    ∃ cmd reads, c.makeCustomQuery fields = .ok cmd ∧ cmd.destination = c.id ∧
      cmd.replyRequired = true ∧ Fields fields reads ∧
      accesses cmd.data = some (reads.map fun x => .read x.1 x.2) ∧
      ∀ regs : Nat → Res → Bytes, (∀ reg r, (regs reg r).length = r.size) →
        (answer regs cmd.data).map List.length = some cmd.expectedReplySize := by
  obtain ⟨lo, rs, hd, hl, hr, hf⟩ := dictRange_ok h hne
  obtain ⟨body, n, e, p⟩ := queryBlock_ok [] lo rs hr hl
  refine ⟨{ c.makeCommand true none with data := [] ++ body, expectedReplySize := n }, _, ?_, rfl, rfl,
    hf, ?_, ?_⟩
  · unfold Controller.makeCustomQuery
    rw [hd]
    simp only
    rw [e]; rfl
  · have := p.1 []
    rw [List.append_nil] at this
    simp only [List.nil_append]
    rw [this]; simp [accesses, decode_nil]
  · intro regs hsz
    obtain ⟨reply, h1, h2⟩ := p.2 regs hsz
    have := h2 []
    rw [List.append_nil] at this
    simp only [List.nil_append]
    rw [this]; simp [answer, decode_nil, h1]

/-- C14: the list of reads is determined by the mapping. -/
theorem C14_fields_unique (d : List (Nat × Option Res)) (l l' : List (Nat × Res))
    (h : Fields d l) (h' : Fields d l') : l = l' := by
  refine List.Perm.eq_of_pairwise (le := fun x y => x.1 < y.1) ?_ h.1 h'.1 ?_
  · intro x y _ _ h1 h2; omega
  · refine (List.perm_ext_iff_of_nodup ?_ ?_).mpr ?_
    · exact h.1.imp (fun hlt => by rintro rfl; omega)
    · exact h'.1.imp (fun hlt => by rintro rfl; omega)
    · rintro ⟨reg, r⟩; rw [h.2, h'.2]

/-- An empty custom query raises `ValueError`. -/
theorem C14_custom_query_empty (c : Controller) : c.makeCustomQuery [] = .error .valueError := rfl

/-- A mapping with a gap and with an ignored entry meets the hypotheses. -/
example : DictOk [(0x70, some .int32), (0x00, some .int8), (0x01, none)] ∧
    Fields [(0x70, some .int32), (0x00, some .int8), (0x01, none)] [(0x00, .int8), (0x70, .int32)] := by
  refine ⟨⟨by decide, by decide, ?_⟩, by decide, ?_⟩
  · rintro ⟨s, r, h⟩
    have h0 := h 0 (by omega)
    have h1 := h 1 (by omega)
    simp at h0 h1
    omega
  · intro reg r
    simp
    constructor
    · rintro (⟨rfl, rfl⟩ | ⟨rfl, rfl⟩) <;> simp
    · rintro (⟨rfl, rfl⟩ | ⟨rfl, rfl⟩) <;> simp

end Verif.Commands
