import Verif.Commands.Spec
import Verif.Multiplex.Props
import Verif.Multiplex.ValueProps

/-! # Lemmas about the command builders -/

namespace Verif.Commands

open Verif Verif.Float Verif.Multiplex Verif.Multiplex.Spec Verif.Commands.Spec

/-! ## Running the combiner with writes that may fail -/

theorem maybeWrite_step {base : Nat} (hb : BaseOk base) (x : Option Res) (rest pre : List (Option Res))
    (c : WriteCombiner) (hbase : c.base = base) (hres : c.resolutions = pre ++ x :: rest)
    (hoff : c.offset = pre.length) (hruns : RunsOk c.current (x :: rest)) :
    ∃ c', c.maybeWrite = .ok (x.isSome, c') ∧ c'.resolutions = c.resolutions ∧
      c'.offset = c.offset + 1 ∧ c'.base = base ∧ c'.current = some x := by
  unfold WriteCombiner.maybeWrite
  have hg : c.resolutions[c.offset]? = some x := by rw [hres, hoff]; simp
  rw [hg]
  dsimp only
  split
  · next h => exact ⟨_, rfl, rfl, rfl, hbase, h⟩
  · next h =>
    cases x with
    | none => exact ⟨_, rfl, rfl, rfl, hbase, rfl⟩
    | some r =>
      have hd : c.resolutions.drop (c.offset + 1) = rest := by
        rw [hres, hoff]; exact drop_pre pre (some r) rest
      dsimp only
      rw [hd, hbase]
      simp only [RunsOk] at hruns
      rcases hruns.1 with h1 | h1
      · exact absurd h1 h
      · rw [blockHeader_ok hb r _ (by omega)]
        exact ⟨_, rfl, rfl, rfl, rfl, rfl⟩

theorem runsOk_tail {prev : Option (Option Res)} {x : Option Res} {rest : List (Option Res)}
    (h : RunsOk prev (x :: rest)) : RunsOk (some x) rest := by
  cases x with
  | none => exact h
  | some r => exact h.2

abbrev Entry := Option Res × Except Err Bytes

/-- The bytes of the entries that are written. -/
def itemOf (e : Entry) : Option Res × Bytes :=
  (e.1, match e.1, e.2 with | some _, .ok b => b | _, _ => [])

theorem run_entries_aux {base : Nat} (hb : BaseOk base) (es : List Entry) (pre : List (Option Res))
    (c : WriteCombiner) (hbase : c.base = base) (hres : c.resolutions = pre ++ es.map Prod.fst)
    (hoff : c.offset = pre.length) (hruns : RunsOk c.current (es.map Prod.fst)) :
    ((∀ e ∈ es, ∀ r, e.1 = some r → ∃ b, e.2 = .ok b) →
      c.run (es.map Prod.snd) = c.run ((es.map itemOf).map fun i => .ok i.2)) ∧
    (∀ e0, (∀ e ∈ es, ∀ r, e.1 = some r → (∃ b, e.2 = .ok b) ∨ e.2 = .error e0) →
      (∃ e ∈ es, ∃ r, e.1 = some r ∧ e.2 = .error e0) → c.run (es.map Prod.snd) = .error e0) := by
  induction es generalizing pre c with
  | nil => simp
  | cons e es ih =>
    obtain ⟨x, w⟩ := e
    obtain ⟨c', h1, h2, h3, h4, h5⟩ := maybeWrite_step hb x (es.map Prod.fst) pre c hbase
      (by simpa using hres) hoff (by simpa using hruns)
    have hruns' := runsOk_tail (x := x) (rest := es.map Prod.fst) (by simpa using hruns)
    have ih' := fun (c'' : WriteCombiner) (hb' : c''.base = base) (hr : c''.resolutions = c'.resolutions)
        (ho : c''.offset = c'.offset) (hc : c''.current = c'.current) =>
      ih (pre ++ [x]) c'' hb' (by rw [hr, h2, hres]; simp) (by rw [ho, h3, hoff]; simp)
        (by rw [hc, h5]; exact hruns')
    constructor
    · intro hall
      have hall' : ∀ e ∈ es, ∀ r, e.1 = some r → ∃ b, e.2 = .ok b :=
        fun e he => hall e (List.mem_cons_of_mem _ he)
      simp only [List.map_cons, WriteCombiner.run, h1]
      cases x with
      | none => exact (ih' c' h4 rfl rfl rfl).1 hall'
      | some r =>
        obtain ⟨b, rfl⟩ : ∃ b, w = .ok b := hall (some r, w) (by simp) r rfl
        exact (ih' { c' with buf := c'.buf ++ b } h4 rfl rfl rfl).1 hall'
    · intro e0 hall hex
      have hall' : ∀ e ∈ es, ∀ r, e.1 = some r → (∃ b, e.2 = .ok b) ∨ e.2 = .error e0 :=
        fun e he => hall e (List.mem_cons_of_mem _ he)
      simp only [List.map_cons, WriteCombiner.run, h1]
      cases x with
      | none =>
        refine (ih' c' h4 rfl rfl rfl).2 e0 hall' ?_
        obtain ⟨e, he, r, h6, h7⟩ := hex
        rcases List.mem_cons.mp he with rfl | he
        · simp at h6
        · exact ⟨e, he, r, h6, h7⟩
      | some r =>
        rcases hall (some r, w) (by simp) r rfl with ⟨b, hbw⟩ | hbw
        · simp only at hbw
          subst hbw
          refine (ih' { c' with buf := c'.buf ++ b } h4 rfl rfl rfl).2 e0 hall' ?_
          obtain ⟨e, he, r, h6, h7⟩ := hex
          rcases List.mem_cons.mp he with rfl | he
          · simp at h7
          · exact ⟨e, he, r, h6, h7⟩
        · simp only at hbw
          subst hbw
          rfl

theorem longRun_short {rs : List (Option Res)} (h : rs.length < 128) : ¬ LongRun rs := by
  rintro ⟨r, hr⟩
  have := hr.length_le
  simp at this
  omega

theorem itemOf_fst (es : List Entry) : (es.map itemOf).map Prod.fst = es.map Prod.fst := by
  simp [itemOf, Function.comp_def]

/-- Running the combiner over entries that all succeed. -/
theorem run_entries {base : Nat} (hb : BaseOk base) (buf : Bytes) (start : Nat) (es : List Entry)
    (hlen : es.length < 128) (hall : ∀ e ∈ es, ∀ r, e.1 = some r → ∃ b, e.2 = .ok b) :
    ∃ c, (WriteCombiner.init buf base start (es.map Prod.fst)).run (es.map Prod.snd) = .ok c ∧
      c.buf = buf ++ enc base start none (es.map itemOf) := by
  have hl : ¬ LongRun (es.map Prod.fst) := longRun_short (by simpa using hlen)
  have h := (run_entries_aux hb es [] (WriteCombiner.init buf base start (es.map Prod.fst)) rfl rfl rfl
    ((runsOk_iff _ _ (by simp [WriteCombiner.init])).mpr hl)).1 hall
  obtain ⟨c, h1, h2, _⟩ := emit_ok hb buf start (es.map itemOf) (by rw [itemOf_fst]; exact hl)
  refine ⟨c, ?_, h2⟩
  rw [h]
  unfold emit at h1
  rw [itemOf_fst] at h1
  exact h1

theorem run_entries_err {base : Nat} (hb : BaseOk base) (buf : Bytes) (start : Nat) (es : List Entry)
    (hlen : es.length < 128) (e0 : Err)
    (hall : ∀ e ∈ es, ∀ r, e.1 = some r → (∃ b, e.2 = .ok b) ∨ e.2 = .error e0)
    (hex : ∃ e ∈ es, ∃ r, e.1 = some r ∧ e.2 = .error e0) :
    (WriteCombiner.init buf base start (es.map Prod.fst)).run (es.map Prod.snd) = .error e0 := by
  have hl : ¬ LongRun (es.map Prod.fst) := longRun_short (by simpa using hlen)
  exact (run_entries_aux hb es [] (WriteCombiner.init buf base start (es.map Prod.fst)) rfl rfl rfl
    ((runsOk_iff _ _ (by simp [WriteCombiner.init])).mpr hl)).2 e0 hall hex

/-! ## Single values -/

theorem scale_eq_step (k : Kind) (r : Res) : k.scale r = step k r := by
  unfold Kind.scale step
  congr 1
  cases k <;> cases r <;> simp only [Kind.nominal, lsb] <;> norm_num

theorem step_pos (k : Kind) (r : Res) : 0 < step k r := by
  cases k <;> cases r <;> decide +kernel

theorem writeF32_ok {x : Fl} {bits : ℕ} (h : pack32 x = some bits) :
    writeF32 x = .ok (leBytes 4 bits) := by simp [writeF32, h]

theorem saturateF32_double {x : Fl} (h : IsDouble x) : saturateF32 x = x := by
  cases x with
  | nan => rfl
  | inf n => rfl
  | fin v => simpa [saturateF32, divF, IsDouble] using h

/-- A value is either written such that the bytes carry it, or it does not
fit in a single. -/
theorem writeMapped_cases (k : Kind) (x : Fl) (r : Res) (hx : IsDouble x) :
    (¬ Sent.TooLarge ⟨0, k, r, x⟩ ∧ ∃ b, writeMapped k (some x) (some r) = .ok b ∧ Carries k r x b) ∨
    (Sent.TooLarge ⟨0, k, r, x⟩ ∧ writeMapped k (some x) (some r) = .error .overflowError) := by
  have hint : ∀ r : Res, r.IsInt → top r = r.max → writeMapped k (some x) (some r)
        = writeMappedInt x (k.scale r) r →
      ∃ b, writeMapped k (some x) (some r) = .ok b ∧ b.length = r.size ∧
        CarriesInt k r (toSigned r.size (leNat b)) x := by
    intro r hr ht hw
    obtain ⟨b, h1, h2, h3⟩ := C03_pack_never_fails x r (k.scale r) hr
    refine ⟨b, hw.trans h1, h2, ?_⟩
    unfold unpackInt at h3
    rw [h3, scale_eq_step]
    have hs := step_pos k r
    cases x with
    | nan => simpa [saturateInt, CarriesInt, ht] using nanValue_eq hr
    | inf n => simpa [saturateInt, CarriesInt, ht] using nanValue_eq hr
    | fin v =>
      simp only [CarriesInt]
      rw [ht]
      refine ⟨fun h => (C04_error v r _ hr hs h).1, (C04_sign v r _ hr hs).1, (C04_sign v r _ hr hs).2,
        (C03_clip v r _ hr hs).1, ?_, ?_⟩
      · intro h
        exact (C03_clip v r _ hr hs).2 (by linarith)
      · exact saturateInt_range v r _ hr
  cases r with
  | int8 =>
    left
    obtain ⟨b, h1, h2, h3⟩ := hint .int8 (by simp [Res.IsInt]) rfl rfl
    exact ⟨by simp [Sent.TooLarge], b, h1, h2, h3⟩
  | int16 =>
    left
    obtain ⟨b, h1, h2, h3⟩ := hint .int16 (by simp [Res.IsInt]) rfl rfl
    exact ⟨by simp [Sent.TooLarge], b, h1, h2, h3⟩
  | int32 =>
    left
    obtain ⟨b, h1, h2, h3⟩ := hint .int32 (by simp [Res.IsInt]) rfl rfl
    exact ⟨by simp [Sent.TooLarge], b, h1, h2, h3⟩
  | f32 =>
    have hw : writeMapped k (some x) (some .f32) = writeF32 x := by
      simp [writeMapped, saturateF32_double hx]
    rw [hw]
    have hok : ∀ bits, pack32 x = some bits → bits < 2 ^ 32 →
        unpack32 bits = single x →
        ∃ b, writeF32 x = .ok b ∧ Carries k .f32 x b := by
      intro bits h1 h2 h3
      refine ⟨_, writeF32_ok h1, ?_, ?_⟩
      · simp [Res.size]
      · simp only
        rw [leNat_leBytes, Nat.mod_eq_of_lt (by simpa using h2)]
        exact h3
    cases x with
    | nan =>
      left
      obtain ⟨bits, h1, h2, h3⟩ := unpack_pack_nonfinite .nan (by simp)
      exact ⟨by simp [Sent.TooLarge], hok bits h1 h2 h3⟩
    | inf n =>
      left
      obtain ⟨bits, h1, h2, h3⟩ := unpack_pack_nonfinite (.inf n) (by simp)
      exact ⟨by simp [Sent.TooLarge], hok bits h1 h2 h3⟩
    | fin v =>
      by_cases ho : |b32.roundQ v| < pow2 b32.emax
      · left
        obtain ⟨bits, h1, h2, h3⟩ := unpack_pack_fin ho
        refine ⟨?_, hok bits h1 h2 h3⟩
        rintro ⟨_, w, h4, h5⟩
        simp only [Fl.fin.injEq] at h4
        subst h4
        exact absurd ho (not_lt.mpr h5)
      · right
        have ho' : pow2 128 ≤ |b32.roundQ v| := not_lt.mp ho
        refine ⟨⟨rfl, v, rfl, ho'⟩, ?_⟩
        have : pack32 (.fin v) = none := (pack32_none_iff _).mpr ⟨v, rfl, ho'⟩
        simp [writeF32, this]

/-! ## Lists of parameters -/

/-- The entry handed to the combiner for a parameter. -/
def EntryFor (p : Param) (e : Entry) : Prop :=
  e.1 = sel p.res p.value ∧
    ∀ r x, p.res = some r → p.value = some x → e.2 = writeMapped p.kind (some x) (some r)

theorem sel_some {o : Option Res} {x : Option Fl} {r : Res} (h : sel o x = some r) :
    o = some r ∧ ∃ v, x = some v := by
  unfold sel at h
  split at h
  · next hv => exact ⟨h, Option.isSome_iff_exists.mp hv⟩
  · simp at h

theorem sent_some {p : Param} {r : Res} {x : Fl} (h1 : p.res = some r) (h2 : p.value = some x) :
    p.sent = some ⟨p.register, p.kind, r, x⟩ := by simp [Param.sent, h1, h2]

theorem entry_cases {p : Param} {e : Entry} (h : EntryFor p e)
    (hd : ∀ x, p.value = some x → IsDouble x) :
    (e.1 = none ∧ p.sent = none) ∨
    (∃ r x b, e = (some r, .ok b) ∧ p.sent = some ⟨p.register, p.kind, r, x⟩ ∧
      ¬ Sent.TooLarge ⟨p.register, p.kind, r, x⟩ ∧ Carries p.kind r x b) ∨
    (∃ r x, e = (some r, .error .overflowError) ∧ p.sent = some ⟨p.register, p.kind, r, x⟩ ∧
      Sent.TooLarge ⟨p.register, p.kind, r, x⟩) := by
  obtain ⟨h1, h2⟩ := h
  obtain ⟨x1, w⟩ := e
  simp only at h1 h2
  cases hs : sel p.res p.value with
  | none =>
    left
    refine ⟨by rw [← hs]; exact h1, ?_⟩
    unfold sel at hs
    unfold Param.sent
    split at hs
    · rw [hs]
    · next hn =>
      have hv : p.value = none := by
        cases hv : p.value with
        | none => rfl
        | some v => rw [hv] at hn; simp at hn
      rw [hv]; cases p.res <;> rfl
  | some r =>
    right
    obtain ⟨hr, v, hv⟩ := sel_some hs
    rw [h1, hs, h2 r v hr hv, sent_some hr hv]
    rcases writeMapped_cases p.kind v r (hd v hv) with ⟨a, b, hb, hc⟩ | ⟨a, hb⟩
    · left
      exact ⟨r, v, b, by rw [hb], rfl, a, hc⟩
    · right
      exact ⟨r, v, by rw [hb], rfl, a⟩

theorem params_entries (ps : List Param) (es : List Entry) (start : Nat)
    (hreg : ps.map Param.register = List.range' start ps.length)
    (hes : List.Forall₂ EntryFor ps es) (hd : Doubles ps) (hno : ¬ SomeTooLarge ps) :
    (∀ e ∈ es, ∀ r, e.1 = some r → ∃ b, e.2 = .ok b) ∧ SizesOk (es.map itemOf) ∧
      Writes ps ((wantedValues start (es.map itemOf)).map fun x => Access.write x.1 x.2.1 x.2.2) := by
  induction hes generalizing start with
  | nil => simp [SizesOk, wantedValues, Writes]
  | @cons p e ps es hpe hes ih =>
    simp only [List.map_cons, List.length_cons, List.range'_succ, List.cons.injEq] at hreg
    obtain ⟨hp, hreg⟩ := hreg
    have hd' : Doubles ps := fun q hq => hd q (List.mem_cons_of_mem _ hq)
    have hno' : ¬ SomeTooLarge ps := by
      rintro ⟨s, hs, ht⟩
      refine hno ⟨s, ?_, ht⟩
      simp only [List.filterMap_cons]
      split
      · exact hs
      · exact List.mem_cons_of_mem _ hs
    obtain ⟨i1, i2, i3⟩ := ih (start + 1) hreg hd' hno'
    rcases entry_cases hpe (hd p (by simp)) with ⟨h1, h2⟩ | ⟨r, x, b, rfl, h2, h3, h4⟩ | ⟨r, x, rfl, h2, h3⟩
    · refine ⟨?_, ?_, ?_⟩
      · intro e' he' r hr
        rcases List.mem_cons.mp he' with rfl | he'
        · rw [h1] at hr; simp at hr
        · exact i1 e' he' r hr
      · intro r v hv
        simp only [List.map_cons, List.mem_cons] at hv
        rcases hv with hv | hv
        · simp [itemOf, h1] at hv
        · exact i2 r v hv
      · unfold Writes at i3 ⊢
        simp only [List.filterMap_cons, h2, List.map_cons]
        rw [show itemOf e = (none, []) by simp [itemOf, h1]]
        exact i3
    · refine ⟨?_, ?_, ?_⟩
      · intro e' he' r' hr
        rcases List.mem_cons.mp he' with rfl | he'
        · exact ⟨b, rfl⟩
        · exact i1 e' he' r' hr
      · intro r' v hv
        simp only [List.map_cons, List.mem_cons] at hv
        rcases hv with hv | hv
        · simp only [itemOf, Prod.mk.injEq, Option.some.injEq] at hv
          obtain ⟨rfl, rfl⟩ := hv
          exact h4.1
        · exact i2 r' v hv
      · unfold Writes at i3 ⊢
        simp only [List.filterMap_cons, h2, List.map_cons]
        rw [show itemOf (some r, .ok b) = (some r, b) by simp [itemOf]]
        simp only [wantedValues, List.map_cons]
        exact List.Forall₂.cons ⟨b, by simp [hp], h4⟩ i3
    · exact absurd ⟨_, by simp [List.filterMap_cons, h2], h3⟩ hno

theorem params_entries_err (ps : List Param) (es : List Entry)
    (hes : List.Forall₂ EntryFor ps es) (hd : Doubles ps) :
    (∀ e ∈ es, ∀ r, e.1 = some r → (∃ b, e.2 = .ok b) ∨ e.2 = .error .overflowError) ∧
    (SomeTooLarge ps → ∃ e ∈ es, ∃ r, e.1 = some r ∧ e.2 = .error .overflowError) := by
  induction hes with
  | nil => simp [SomeTooLarge]
  | @cons p e ps es hpe hes ih =>
    have hd' : Doubles ps := fun q hq => hd q (List.mem_cons_of_mem _ hq)
    obtain ⟨i1, i2⟩ := ih hd'
    have hrest : SomeTooLarge ps → ∃ e' ∈ e :: es, ∃ r, e'.1 = some r ∧ e'.2 = .error .overflowError := by
      intro h
      obtain ⟨e', he', hr⟩ := i2 h
      exact ⟨e', List.mem_cons_of_mem _ he', hr⟩
    rcases entry_cases hpe (hd p (by simp)) with ⟨h1, h2⟩ | ⟨r, x, b, rfl, h2, h3, h4⟩ | ⟨r, x, rfl, h2, h3⟩
    · refine ⟨?_, ?_⟩
      · intro e' he' r hr
        rcases List.mem_cons.mp he' with rfl | he'
        · rw [h1] at hr; simp at hr
        · exact i1 e' he' r hr
      · rintro ⟨s, hs, ht⟩
        simp only [List.filterMap_cons, h2] at hs
        exact hrest ⟨s, hs, ht⟩
    · refine ⟨?_, ?_⟩
      · intro e' he' r' hr
        rcases List.mem_cons.mp he' with rfl | he'
        · exact Or.inl ⟨b, rfl⟩
        · exact i1 e' he' r' hr
      · rintro ⟨s, hs, ht⟩
        simp only [List.filterMap_cons, h2, List.mem_cons] at hs
        rcases hs with rfl | hs
        · exact absurd ht h3
        · exact hrest ⟨s, hs, ht⟩
    · refine ⟨?_, fun _ => ⟨_, List.mem_cons_self, r, rfl, rfl⟩⟩
      intro e' he' r' hr
      rcases List.mem_cons.mp he' with rfl | he'
      · exact Or.inr rfl
      · exact i1 e' he' r' hr

/-- Writes are not answered. -/
theorem answer_write_enc (regs : Nat → Res → Bytes) (items : List (Option Res × Bytes)) (reg : Nat)
    (tail : Bytes)
    (hsz : SizesOk items) (hruns : RunsOk none (items.map Prod.fst))
    (hreg : reg + items.length ≤ 2 ^ 35) :
    answer regs (enc 0x00 reg none items ++ tail) = answer regs tail := by
  revert tail hsz hruns hreg
  refine block_induction (P := fun reg items => ∀ tail, SizesOk items →
    RunsOk none (items.map Prod.fst) → reg + items.length ≤ 2 ^ 35 →
    answer regs (enc 0x00 reg none items ++ tail) = answer regs tail)
    ?_ ?_ ?_ items reg
  · intro reg tail _ _ _
    simp [enc]
  · intro reg w items ih tail hsz hruns hreg
    simp at hreg
    have := ih tail (fun r v h => hsz r v (List.mem_cons_of_mem _ h))
      (runsOk_skip (by simpa [RunsOk] using hruns)) (by omega)
    simp only [enc, enc_skip]
    exact this
  · intro reg r w ws rest h0 ih tail hsz hruns hreg
    obtain ⟨hlen, hruns'⟩ := runsOk_block r w ws rest h0 hruns
    simp at hreg
    have ih := ih tail
      (fun r' v h => hsz r' v (by simp [h])) hruns' (by omega)
    have hsz' : ∀ v ∈ w :: ws, v.length = r.size := by
      intro v hv
      refine hsz r v ?_
      simp only [List.mem_cons] at hv
      rcases hv with rfl | hv
      · simp
      · simp [hv]
    rw [enc_block _ _ _ _ _ _ h0]
    unfold answer at ih ⊢
    rw [List.append_assoc, List.append_assoc]
    have := decode_write_block r (w :: ws) (reg := reg) (enc 0x00 (reg + 1 + ws.length) none rest ++ tail)
      (by simp) (by simp; omega) (by omega) hsz'
    simp only [List.length_cons, Nat.add_comm ws.length 1] at this
    rw [this, Option.map_map, ← ih]
    congr 1

/-- A piece of a frame that consists of the given writes. -/
def WritePiece (body : Bytes) (ws : List Access) : Prop :=
  (∀ tail, accesses (body ++ tail) = (accesses tail).map (ws ++ ·)) ∧
  ∀ regs tail, answer regs (body ++ tail) = answer regs tail

theorem WritePiece.append {a b : Bytes} {x y : List Access} (h1 : WritePiece a x)
    (h2 : WritePiece b y) : WritePiece (a ++ b) (x ++ y) := by
  constructor
  · intro tail
    rw [List.append_assoc, h1.1, h2.1, Option.map_map]
    simp [Function.comp_def]
  · intro regs tail
    rw [List.append_assoc, h1.2, h2.2]

theorem WritePiece.nil : WritePiece [] [] := by
  constructor <;> simp

/-- Items as a piece of a frame. -/
theorem writePiece_enc (items : List (Option Res × Bytes)) (start : Nat) (hsz : SizesOk items)
    (hlen : items.length < 128) (hreg : start + items.length ≤ 2 ^ 35) :
    WritePiece (enc 0x00 start none items)
      ((wantedValues start items).map fun x => Access.write x.1 x.2.1 x.2.2) := by
  have hr : RunsOk none (items.map Prod.fst) :=
    (runsOk_iff _ _ (by simp)).mpr (longRun_short (by simpa using hlen))
  exact ⟨fun tail => accesses_write_enc items start tail hsz hr hreg,
    fun regs tail => answer_write_enc regs items start tail hsz hr hreg⟩

theorem build_params (buf : Bytes) (start : Nat) (ps : List Param) (es : List Entry)
    (hreg : ps.map Param.register = List.range' start ps.length)
    (hes : List.Forall₂ EntryFor ps es) (hd : Doubles ps) (hlen : es.length < 128)
    (hst : start + es.length ≤ 2 ^ 35) :
    (SomeTooLarge ps ∧ (WriteCombiner.init buf 0x00 start (es.map Prod.fst)).run (es.map Prod.snd)
      = .error .overflowError) ∨
    (¬ SomeTooLarge ps ∧ ∃ c body ws,
      (WriteCombiner.init buf 0x00 start (es.map Prod.fst)).run (es.map Prod.snd) = .ok c ∧
      c.buf = buf ++ body ∧ Writes ps ws ∧ WritePiece body ws) := by
  by_cases h : SomeTooLarge ps
  · left
    obtain ⟨h1, h2⟩ := params_entries_err ps es hes hd
    exact ⟨h, run_entries_err (Or.inl rfl) buf start es hlen .overflowError h1 (h2 h)⟩
  · right
    obtain ⟨h1, h2, h3⟩ := params_entries ps es start hreg hes hd h
    obtain ⟨c, h4, h5⟩ := run_entries (Or.inl rfl) buf start es hlen h1
    exact ⟨h, c, _, _, h4, h5, h3, writePiece_enc _ _ h2 (by simpa using hlen) (by simpa using hst)⟩

/-- A literal frame head: one int8 write of register `reg`. -/
theorem writePiece_int8 {reg : Nat} (hreg : reg < 2 ^ 35) (v : UInt8) :
    WritePiece ([0x01] ++ writeVaruint reg ++ [v]) [.write reg .int8 [v]] := by
  have h := writePiece_enc [(some .int8, [v])] reg
    (by intro r w h; simp at h; rcases h with ⟨rfl, rfl⟩; rfl) (by simp) (by simp; omega)
  simpa [enc, header, countRun, wantedValues, Res.commandBits] using h

theorem writePiece_value (r : Res) {reg : Nat} (hreg : reg < 2 ^ 35) (v : Bytes) (hv : v.length = r.size) :
    WritePiece ([UInt8.ofNat (r.commandBits + 1)] ++ writeVaruint reg ++ v) [.write reg r v] := by
  have h := writePiece_enc [(some r, v)] reg
    (by intro r w h; simp at h; rcases h with ⟨rfl, rfl⟩; exact hv) (by simp) (by simp; omega)
  simpa [enc, header, countRun, wantedValues] using h

end Verif.Commands
