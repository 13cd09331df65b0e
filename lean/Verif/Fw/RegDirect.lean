import Verif.Fw.RegFrames

/-!
# Commands that act at once (C59), and end-to-end disagreements

The library's commands without a mode: set output position, reindex,
recapture, clock trim, GPIO and PWM outputs.
-/

namespace Verif.Fw.Registers

open Verif Verif.Float Verif.Multiplex Verif.Multiplex.Spec Verif.Commands Verif.Commands.Spec

/-- After any history, the frame `data` makes the controller do exactly
`es` with `P es`; in particular no command is started. -/
def Does (data : Bytes) (P : List Effect → Prop) : Prop :=
  ∃ l, Spec.accesses data = some l ∧ ∀ (env : Env) (hist : List (Option (List Access))),
    ∃ es, P es ∧ (run env .init (hist ++ [some l])).1.log = (run env .init hist).1.log ++ es

theorem does {data : Bytes} {l : List Access} {P : List Effect → Prop}
    (hacc : Spec.accesses data = some l)
    (h : ∀ reg r b, Access.write reg r b ∈ l → reg ≠ 0 ∧ (reg < 0x154 ∨ 0x157 < reg))
    (hP : P (l.filterMap direct)) : Does data P := by
  refine ⟨l, hacc, fun env hist => ⟨_, hP, ?_⟩⟩
  rw [run_snoc]
  refine (C13_no_mode env _ l ?_ ?_).1
  · intro i hi r b hm
    have := (h _ _ _ hm).2
    omega
  · intro r b hm
    exact absurd rfl (h _ _ _ hm).1

theorem reads_shape {q : Option QueryResolution} {reads : List Access} (hr : Reads q reads) :
    ∀ a ∈ reads, ∃ reg r, a = .read reg r := by
  intro a ha
  unfold Reads at hr
  split at hr
  · rw [hr] at ha; cases ha
  · obtain ⟨regs, _, e⟩ := hr
    rw [e] at ha
    obtain ⟨x, _, rfl⟩ := List.mem_map.mp ha
    exact ⟨_, _, rfl⟩

theorem does_delivers {ctl : Controller} {query : Bool} {override : Option QueryResolution} {cmd : Command}
    {ws : List Access} {P : List Effect → Prop} (hD : Delivers ctl query override cmd ws)
    (h : ∀ reg r b, Access.write reg r b ∈ ws → reg ≠ 0 ∧ (reg < 0x154 ∨ 0x157 < reg))
    (hP : P (ws.filterMap direct)) : Does cmd.data P := by
  obtain ⟨_, _, _, ⟨reads, hr, hacc⟩, _⟩ := hD
  have hr' := reads_shape hr
  refine does hacc ?_ ?_
  · intro reg r b hm
    rcases List.mem_append.mp hm with hm | hm
    · exact h reg r b hm
    · obtain ⟨_, _, e⟩ := hr' _ hm
      cases e
  · have : reads.filterMap direct = [] := by
      rw [List.filterMap_eq_nil_iff]
      intro a ha
      obtain ⟨_, _, rfl⟩ := hr' a ha
      rfl
    rw [List.filterMap_append, this, List.append_nil]
    exact hP

/-- C59, set output position: the reference moves to the nearest single of the
argument. -/
theorem C59_set_output (c : Controller) (hc : c.Constructed) (query : Bool)
    (override : Option QueryResolution) (hq : QueryOk c override) (x : Fl) (hx : IsDouble x) (cmd : Command) :
    (c.makeSetOutputNearest x query override = .ok cmd → Does cmd.data (· = [.setNearest (single x)])) ∧
    (c.makeSetOutputExact x query override = .ok cmd → Does cmd.data (· = [.setExact (single x)])) ∧
    (c.makeRezero x query override = .ok cmd → Does cmd.data (· = [.setNearest (single x)])) := by
  have key : ∀ (result : Except Err Command) (reg : Nat) (e : Fl → Effect),
      (∀ b, direct (.write reg .f32 b) = some (e (unpack32 (leNat b)))) → reg ≠ 0 → reg < 0x154 →
      Realizes c query override result [] [⟨reg, .position, some .f32, some x⟩] → result = .ok cmd →
      Does cmd.data (· = [e (single x)]) := by
    intro result reg e hdir h0 h1 hR hok
    rcases hR with ⟨_, h⟩ | ⟨_, cmd', ws, h, hw, hD⟩
    · rw [hok] at h; cases h
    · rw [hok] at h
      injection h with h
      subst h
      have hw' : List.Forall₂ Is [⟨reg, .position, .f32, x⟩] ws := hw
      cases hw' with
      | cons h1' h2' =>
        cases h2'
        obtain ⟨b, rfl, hb⟩ := h1'
        refine does_delivers hD ?_ ?_
        · intro reg' r' b' hm
          rw [List.nil_append, List.mem_singleton] at hm
          injection hm with e1
          subst e1
          exact ⟨h0, .inl h1⟩
        · rw [List.nil_append, List.filterMap_cons_some (hdir b), List.filterMap_nil]
          have : unpack32 (leNat b) = single x := hb.2
          rw [this]
  obtain ⟨h1, h2, h3⟩ := C12_set_output c hc query override hq x hx
  exact ⟨key _ 0x130 .setNearest (fun _ => rfl) (by decide) (by decide) h1,
    key _ 0x131 .setExact (fun _ => rfl) (by decide) (by decide) h2,
    key _ 0x130 .setNearest (fun _ => rfl) (by decide) (by decide) h3⟩

/-- C59, reindex and recapture. -/
theorem C59_reindex_recapture (c : Controller) (query : Bool) (override : Option QueryResolution) :
    (∃ cmd, c.makeRequireReindex query override = .ok cmd ∧ Does cmd.data (· = [.requireReindex])) ∧
    (∃ cmd, c.makeRecapture query override = .ok cmd ∧ Does cmd.data (· = [.recapture])) := by
  obtain ⟨⟨c1, h1, a1⟩, ⟨c2, h2, a2⟩⟩ := C12_reindex_recapture c query override
  refine ⟨⟨c1, h1, does a1 ?_ rfl⟩, ⟨c2, h2, does a2 ?_ rfl⟩⟩ <;>
  · intro reg r b hm
    rw [List.mem_singleton] at hm
    injection hm with e
    omega

/-- C59, clock trim: the controller sets the low byte of the argument as a
signed number. -/
theorem C59_set_trim_partial (c : Controller) (trim : Int) (h : -(2 ^ 31) ≤ trim ∧ trim < 2 ^ 31) :
    ∃ cmd n, c.makeSetTrim trim = .ok cmd ∧ Does cmd.data (· = [.setTrim n]) ∧
      -128 ≤ n ∧ n ≤ 127 ∧ n % 256 = trim % 256 ∧ (-128 ≤ trim → trim ≤ 127 → n = trim) := by
  obtain ⟨cmd, b, h1, _, _, h2, h3⟩ := (C12_set_trim c trim).1 h
  have hw : -128 ≤ wrap 8 trim ∧ wrap 8 trim ≤ 127 ∧ wrap 8 trim % 256 = trim % 256 := by
    simp only [wrap, Int.bmod]; norm_num; split <;> omega
  refine ⟨cmd, wrap 8 trim, h1, does h2 ?_ ?_, hw.1, hw.2.1, hw.2.2, by omega⟩
  · intro reg r b hm
    rw [List.mem_singleton] at hm
    injection hm with e
    omega
  · show [Effect.setTrim (wrap 8 (toSigned 4 (leNat b)))] = _
    rw [h3]

/-- C59 fails for the clock trim: the library sends 32 bits, the controller
keeps 8 of them.  A trim of 200 is set as -56. -/
theorem C59_set_trim_refuted (c : Controller) :
    ∃ cmd, c.makeSetTrim 200 = .ok cmd ∧ Does cmd.data (· = [.setTrim (-56)]) := by
  obtain ⟨cmd, n, h1, h2, h3, h4, h5, _⟩ := C59_set_trim_partial c 200 (by norm_num)
  have : n = -56 := by omega
  rw [this] at h2
  exact ⟨cmd, h1, h2⟩

/-- C59, GPIO outputs. -/
theorem C59_write_gpio (c : Controller) (hc : c.Constructed) (aux1 aux2 : Option Int) (query : Bool)
    (override : Option QueryResolution) (hq : QueryOk c override)
    (h : ∀ v, aux1 = some v ∨ aux2 = some v → -128 ≤ v ∧ v < 128) :
    ∃ cmd, c.makeWriteGpio aux1 aux2 query override = .ok cmd ∧
      Does cmd.data (· = (aux1.map (Effect.digitalOut 1)).toList ++ (aux2.map (Effect.digitalOut 2)).toList) := by
  obtain ⟨cmd, ws, h1, hw, hD⟩ := (C12_write_gpio c hc aux1 aux2 query override hq).1 h
  have hv : ∀ (v : Int) (b : Bytes), -128 ≤ v → v < 128 → toSigned 1 (leNat b) = v →
      readInt (.ofBytes .int8 b) = v := by
    intro v b h1 h2 e
    show wrap 8 (toSigned 1 (leNat b)) = v
    rw [e]
    simp only [wrap, Int.bmod]; norm_num; split <;> omega
  have hreg : ∀ a ∈ ws, ∃ reg b, a = .write reg .int8 b ∧ (reg = 0x05c ∨ reg = 0x05d) := by
    intro a ha
    obtain ⟨x, hx, b, e, _⟩ := forall₂_mem hw ha
    refine ⟨x.1, b, e, ?_⟩
    rcases List.mem_append.mp hx with hx | hx
    · cases aux1 with
      | none => cases hx
      | some v => rw [List.mem_singleton.mp hx]; exact .inl rfl
    · cases aux2 with
      | none => cases hx
      | some v => rw [List.mem_singleton.mp hx]; exact .inr rfl
  refine ⟨cmd, h1, does_delivers hD ?_ ?_⟩
  · intro reg r b hm
    obtain ⟨reg', b', e, hr⟩ := hreg _ hm
    injection e with e1
    omega
  · unfold gpioWrites at hw
    cases aux1 with
    | none =>
      cases aux2 with
      | none => cases hw; rfl
      | some v =>
        have hb := h v (.inr rfl)
        cases hw with
        | cons h1 h2 =>
          cases h2
          obtain ⟨b, rfl, e⟩ := h1
          show [Effect.digitalOut 2 (readInt (.ofBytes .int8 b))] = _
          rw [hv v b hb.1 hb.2 e]; rfl
    | some u =>
      have hu := h u (.inl rfl)
      cases aux2 with
      | none =>
        cases hw with
        | cons h1 h2 =>
          cases h2
          obtain ⟨b, rfl, e⟩ := h1
          show [Effect.digitalOut 1 (readInt (.ofBytes .int8 b))] = _
          rw [hv u b hu.1 hu.2 e]; rfl
      | some v =>
        have hb := h v (.inr rfl)
        cases hw with
        | cons h1 h2 =>
          cases h2 with
          | cons h3 h4 =>
            cases h4
            obtain ⟨b, rfl, e⟩ := h1
            obtain ⟨b', rfl, e'⟩ := h3
            show [Effect.digitalOut 1 (readInt (.ofBytes .int8 b)),
              Effect.digitalOut 2 (readInt (.ofBytes .int8 b'))] = _
            rw [hv u b hu.1 hu.2 e, hv v b' hb.1 hb.2 e']; rfl

/-- The output that a PWM register drives. -/
def pwmPin (reg : Nat) : Nat × Nat := if reg < 0x07b then (1, reg - 0x076) else (2, reg - 0x07b)

/-- C59, PWM outputs: one call for each value sent, in order, to the pin of
its register. -/
theorem C59_aux_pwm (c : Controller) (hc : c.Constructed) (args : List (Option Fl)) (query : Bool)
    (override : Option QueryResolution) (hq : QueryOk c override) (hlen : args.length = 10)
    (hd : Doubles (auxPwmParams c.pwm_resolution args)) (cmd : Command)
    (hcmd : c.makeAuxPwm args query override = .ok cmd) :
    Does cmd.data (List.Forall₂ (fun (sn : Sent) e => ∃ y, Arrives .pwm sn.res sn.value y ∧
        e = .pwmOut (pwmPin sn.register).1 (pwmPin sn.register).2 y)
      ((auxPwmParams c.pwm_resolution args).filterMap Param.sent)) := by
  have hrange : ∀ sn ∈ (auxPwmParams c.pwm_resolution args).filterMap Param.sent,
      0x076 ≤ sn.register ∧ sn.register ≤ 0x07f ∧ sn.kind = .pwm := by
    intro sn hs
    obtain ⟨p, hp, e⟩ := List.mem_filterMap.mp hs
    unfold auxPwmParams at hp
    obtain ⟨x, hx, rfl⟩ := List.mem_map.mp hp
    have hlt := List.snd_lt_add_of_mem_zipIdx hx
    simp only [List.length_zip, c.pwm_resolution.ten, hlen] at hlt
    unfold Param.sent at e
    split at e
    · injection e with e
      rw [← e]
      exact ⟨by simp, by simp; omega, rfl⟩
    · cases e
  rcases C12_aux_pwm c hc args query override hq hlen hd with ⟨_, h⟩ | ⟨_, cmd', ws, h, hw, hD⟩
  · rw [hcmd] at h; cases h
  · rw [hcmd] at h
    injection h with h
    subst h
    rw [List.nil_append] at hD
    have hw' : List.Forall₂ Is _ ws := hw
    refine does_delivers hD ?_ ?_
    · intro reg r b hm
      obtain ⟨sn, hs, b', e, _⟩ := forall₂_mem hw' hm
      injection e with e1
      have := hrange sn hs
      omega
    · clear hw hD hcmd
      generalize (auxPwmParams c.pwm_resolution args).filterMap Param.sent = sents at *
      induction hw' with
      | nil => exact .nil
      | @cons sn a sents ws h1 _ ih =>
        obtain ⟨b, rfl, hb⟩ := h1
        obtain ⟨g1, g2, g3⟩ := hrange sn List.mem_cons_self
        have hdir : direct (.write sn.register sn.res b) = some (.pwmOut (pwmPin sn.register).1
            (pwmPin sn.register).2 (readScale .pwm (.ofBytes sn.res b))) := by
          unfold pwmPin
          generalize sn.register = reg at *
          interval_cases reg <;> rfl
        rw [List.filterMap_cons_some hdir]
        rw [g3] at hb
        exact .cons ⟨_, C47_command_unit .pwm (by decide) (by decide) _ _ _ hb, rfl⟩
          (ih fun x hx => hrange x (List.mem_cons_of_mem _ hx))

/-- Hypotheses of `C59_write_gpio`, `C59_set_output` and `C59_aux_pwm`: the
defaults of the library, both ports and the first two outputs. -/
example : (exampleController none).Constructed ∧ QueryOk (exampleController none) none ∧
    (∃ cmd, (exampleController none).makeWriteGpio (some 3) (some (-1)) false none = .ok cmd) ∧
    Doubles (auxPwmParams (exampleController none).pwm_resolution
      (some (.fin (1 / 2)) :: some (.fin 1) :: List.replicate 8 none)) ∧
    ((exampleController none).makeAuxPwm (some (.fin (1 / 2)) :: some (.fin 1) :: List.replicate 8 none) false
      none).toOption.isSome = true := by
  refine ⟨exampleController_constructed _, exampleController_queryOk _, ⟨_, rfl⟩, ?_, ?_⟩
  · intro p hp x hx
    simp only [auxPwmParams, exampleController, List.replicate, List.zip_cons_cons, List.zip_nil_right,
      List.zipIdx_cons, List.zipIdx_nil, List.map_cons, List.map_nil, List.mem_cons, List.mem_nil_iff, or_false] at hp
    rcases hp with rfl | rfl | rfl | rfl | rfl | rfl | rfl | rfl | rfl | rfl <;> simp at hx <;> subst hx <;>
      (show b64.round _ = .fin _; decide +kernel)
  · decide +kernel

/-! ## Disagreement in the unit of `ilimit_scale` (C13, C47) -/

/-- The library scales `ilimit_scale` as a voltage, the controller reads it as
a PWM value: 0.5 sent as INT8 arrives as 1/127. -/
theorem C47_ilimit_scale_refuted :
    ∃ (ctl : Controller) (cmd : Command), ctl.Constructed ∧ QueryOk ctl none ∧
      ctl.makePosition { ilimit_scale := some (.fin (1/2)) } false none = .ok cmd ∧
      ∃ l, Spec.accesses cmd.data = some l ∧ ∀ (env : Env) (hist : List (Option (List Access))), ∃ c,
        (run env .init (hist ++ [some l])).1.log = (run env .init hist).1.log ++ [.command c] ∧
        c.val .ilimitScale = .fin (b32.roundQ (1 / 127)) := by
  have hacc : Spec.accesses [0x01, 0x00, 0x0a, 0x01, 0x2b, 0x01] =
      some [.write 0x000 .int8 [10], .write 0x02b .int8 [1]] := by decide +kernel
  refine ⟨exampleController (some .int8), ⟨1, 0, false, 0, [0x01, 0x00, 0x0a, 0x01, 0x2b, 0x01]⟩,
    exampleController_constructed _, exampleController_queryOk _, by decide +kernel,
    [.write 0x000 .int8 [10], .write 0x02b .int8 [1]], hacc, fun env hist => ?_⟩
  obtain ⟨c, hc, hlog⟩ := C13_frame env (run env .init hist).1 [] [.write 0x02b .int8 [1]] .int8 [10]
    (by unfold ModeOk; decide)
    (by intro i hi r b h; simp only [List.nil_append, List.mem_cons, List.not_mem_nil, or_false,
          Access.write.injEq] at h; omega)
    (by intro r b h; simp at h)
  refine ⟨c, ?_, ?_⟩
  · rw [run_snoc]
    simpa [direct] using hlog
  · rw [hc.val]
    decide +kernel

end Verif.Fw.Registers
