import Verif.Multiplex.Combiner

/-! # Lemmas about `RegisterParser` -/

namespace Verif.Multiplex

open Verif Verif.Float Verif.Multiplex.Spec

theorem Res.size_pos (r : Res) : 0 < r.size := by cases r <;> decide

theorem res_ofId_commandBits (r : Res) (base n : Nat) (hb : BaseOk base) (hn : n ≤ 3) :
    Res.ofId ((base + r.commandBits + n) >>> 2 &&& 0x03) = r ∧
      (base + r.commandBits + n) &&& 0x03 = n := by
  have : n = 0 ∨ n = 1 ∨ n = 2 ∨ n = 3 := by omega
  rcases hb with rfl | rfl | rfl <;> rcases this with rfl | rfl | rfl | rfl <;>
    cases r <;> exact ⟨rfl, rfl⟩

theorem commandBits_le (r : Res) : r.commandBits ≤ 12 := by cases r <;> decide

theorem ofNat_ne_NOP {n : Nat} (h : n < 0x50) : UInt8.ofNat n ≠ NOP := by
  intro hc
  have := congrArg UInt8.toNat hc
  simp [NOP] at this
  omega

theorem block_varuint {reg : Nat} (hreg : reg < 2 ^ 35) (data : Bytes) (count old : Nat) (r : Res)
    (hlen : r.size ≤ data.length) :
    RegisterParser.block (writeVaruint reg ++ data) count old r =
      (some (reg, r), ⟨data, count - 1, reg + 1, r⟩) := by
  have h := spec_varuint_write 4 reg data (by simpa using hreg)
  obtain ⟨k, h1, h2⟩ := readVaruint_of_spec h
  unfold RegisterParser.block
  rw [h1]
  simp only [h2]
  rw [if_neg (by omega)]

/-- Scanning over the framing of a reply block. -/
theorem scan_header (reg0 : Nat) (res0 : Res) (r : Res) {count reg : Nat} (data : Bytes)
    (h0 : 0 < count) (hc : count < 128) (hreg : reg < 2 ^ 35) (hlen : r.size ≤ data.length) :
    RegisterParser.scan reg0 res0 (header 0x20 r count reg ++ data) =
      (some (reg, r), ⟨data, count - 1, reg + 1, r⟩) := by
  have hb : BaseOk 0x20 := Or.inr (Or.inr rfl)
  have hcb := commandBits_le r
  have hwv : writeVaruint reg ++ data ≠ [] := by
    intro h
    have := writeVaruint_length_pos reg
    have h2 := congrArg List.length h
    rw [List.length_append, List.length_nil] at h2; omega
  obtain ⟨b, t, hbt⟩ := List.exists_cons_of_ne_nil hwv
  unfold header
  by_cases hle : count ≤ 3
  · rw [if_pos hle]
    simp only [List.cons_append, List.nil_append, hbt]
    unfold RegisterParser.scan
    rw [if_neg (ofNat_ne_NOP (by omega))]
    obtain ⟨hid, hcnt⟩ := res_ofId_commandBits r 0x20 count hb hle
    have hto : (UInt8.ofNat (0x20 + r.commandBits + count)).toNat = 0x20 + r.commandBits + count := by
      simp; omega
    simp only [hto, hid, hcnt]
    rw [if_pos (by omega), if_neg (by omega), ← hbt]
    exact block_varuint hreg data count reg0 r hlen
  · rw [if_neg hle]
    simp only [List.cons_append, List.nil_append, hbt]
    unfold RegisterParser.scan
    rw [if_neg (ofNat_ne_NOP (by omega))]
    obtain ⟨hid, hcnt⟩ := res_ofId_commandBits r 0x20 0 hb (by omega)
    simp only [Nat.add_zero] at hid hcnt
    have hto : (UInt8.ofNat (0x20 + r.commandBits)).toNat = 0x20 + r.commandBits := by
      simp; omega
    have hto2 : (UInt8.ofNat count).toNat = count := by simp; omega
    simp only [hto, hto2, hid, hcnt]
    rw [if_pos (by omega), if_pos trivial, if_neg (by omega), ← hbt]
    exact block_varuint hreg data count reg0 r hlen

/-- With no values outstanding the remembered register and resolution do not
matter. -/
theorem scan_irrel (reg reg' : Nat) (res res' : Res) (data : Bytes) :
    (RegisterParser.scan reg res data).1 = (RegisterParser.scan reg' res' data).1 ∧
    ((RegisterParser.scan reg res data).1.isSome →
      (RegisterParser.scan reg res data).2 = (RegisterParser.scan reg' res' data).2) := by
  induction hn : data.length using Nat.strongRecOn generalizing data reg reg' res res' with
  | ind n ih =>
    cases data with
    | nil => simp [RegisterParser.scan]
    | cons cmd rest =>
      unfold RegisterParser.scan
      split
      · exact ih rest.length (by simp at hn; omega) reg reg' res res' rest rfl
      · cases rest with
        | nil => simp
        | cons b rest' =>
          simp only
          split
          · split
            · cases rest' with
              | nil => simp
              | cons c rest'' =>
                simp only
                split
                · exact ih (c :: rest'').length (by simp at hn ⊢; omega) _ _ _ _ (c :: rest'') rfl
                · unfold RegisterParser.block
                  cases readVaruint 0 (c :: rest'') with
                  | mk v k => cases v <;> simp
            · unfold RegisterParser.block
              cases readVaruint 0 (b :: rest') with
              | mk v k => cases v <;> simp
          · simp

theorem loop_irrel (fuel : Nat) (data : Bytes) (reg reg' : Nat) (res res' : Res) :
    RegisterParser.loop fuel ⟨data, 0, reg, res⟩ = RegisterParser.loop fuel ⟨data, 0, reg', res'⟩ := by
  cases fuel with
  | zero => rfl
  | succ fuel =>
    unfold RegisterParser.loop RegisterParser.next
    by_cases hd : data = []
    · simp [hd]
    · simp only [hd, if_false, ne_eq, not_true_eq_false]
      obtain ⟨h1, h2⟩ := scan_irrel reg reg' res res' data
      generalize RegisterParser.scan reg res data = a at *
      generalize RegisterParser.scan reg' res' data = b at *
      obtain ⟨a1, a2⟩ := a
      obtain ⟨b1, b2⟩ := b
      simp only at h1 h2
      subst h1
      cases a1 with
      | none => rfl
      | some x => rw [h2 rfl]

/-- Add parsed items in front of a parse result. -/
def prepend (items : List (Nat × Res × Bytes)) :
    Option (Except Err (List (Nat × Res × Bytes))) → Option (Except Err (List (Nat × Res × Bytes))) :=
  Option.map (Except.map (items ++ ·))

theorem prepend_nil (x) : prepend [] x = x := by
  cases x with
  | none => rfl
  | some x => cases x <;> simp [prepend, Except.map]

theorem prepend_append (a b x) : prepend (a ++ b) x = prepend a (prepend b x) := by
  cases x with
  | none => rfl
  | some x => cases x <;> simp [prepend, Except.map]

/-- One step of the loop. -/
theorem loop_step {fuel : Nat} {p : RegisterParser} {reg : Nat} {r : Res} {w data : Bytes}
    {rem reg' : Nat}
    (hnext : p.next = (some (reg, r), ⟨w ++ data, rem, reg', r⟩)) (hw : w.length = r.size) :
    RegisterParser.loop (fuel + 1) p =
      prepend [(reg, r, w)] (RegisterParser.loop fuel ⟨data, rem, reg', r⟩) := by
  conv => lhs; unfold RegisterParser.loop
  rw [hnext]
  simp only [RegisterParser.read]
  rw [if_neg (by simp; omega)]
  simp only [← hw, List.take_left', List.drop_left']
  cases RegisterParser.loop fuel ⟨data, rem, reg', r⟩ with
  | none => rfl
  | some x => cases x <;> rfl

/-- Number of items that a list of entries yields. -/
def numWanted : List (Option Res × Bytes) → Nat
  | [] => 0
  | (none, _) :: rs => numWanted rs
  | (some _, _) :: rs => numWanted rs + 1

/-- State of the parser in front of the encoding of the remaining entries. -/
def Aligned (prev : Option (Option Res)) (rs : List (Option Res)) (reg : Nat) (p : RegisterParser) : Prop :=
  match prev with
  | some (some r) =>
    p.remaining = countRun r rs ∧ (p.remaining ≠ 0 → p.resolution = r ∧ p.register = reg)
  | _ => p.remaining = 0

theorem loop_enc (items : List (Option Res × Bytes)) (reg : Nat) (prev : Option (Option Res))
    (tail : Bytes) (fuel : Nat) (p : RegisterParser)
    (hp : p.rest = enc 0x20 reg prev items ++ tail)
    (hal : Aligned prev (items.map Prod.fst) reg p)
    (hsz : SizesOk items) (hruns : RunsOk prev (items.map Prod.fst))
    (hreg : reg + items.length ≤ 2 ^ 35) :
    RegisterParser.loop (fuel + numWanted items) p =
      prepend (wantedValues reg items) (RegisterParser.loop fuel ⟨tail, 0, 0, .int8⟩) := by
  induction items generalizing reg prev p with
  | nil =>
    simp only [numWanted, wantedValues, prepend_nil, Nat.add_zero]
    have h0 : p.remaining = 0 := by
      unfold Aligned at hal
      split at hal
      · simp [countRun] at hal; exact hal.1
      · exact hal
    obtain ⟨rest, remaining, register, resolution⟩ := p
    simp only at h0 hp
    subst h0
    simp [enc] at hp
    subst hp
    exact loop_irrel _ _ _ _ _ _
  | cons it items ih =>
    obtain ⟨x, w⟩ := it
    have hsz' : SizesOk items := fun r v h => hsz r v (List.mem_cons_of_mem _ h)
    simp only [List.length_cons] at hreg
    cases x with
    | none =>
      simp only [numWanted, wantedValues]
      refine ih (reg + 1) (some none) p hp ?_ hsz' hruns (by omega)
      unfold Aligned at hal ⊢
      simp only [List.map_cons] at hal
      split at hal
      · simp [countRun] at hal; exact hal.1
      · exact hal
    | some r =>
      have hwlen : w.length = r.size := hsz r w (by simp)
      have hrs := r.size_pos
      simp only [numWanted, wantedValues]
      rw [← Nat.add_assoc]
      simp only [List.map_cons] at hal hruns
      have hnext : p.next = (some (reg, r),
          ⟨w ++ (enc 0x20 (reg + 1) (some (some r)) items ++ tail),
            countRun r (items.map Prod.fst), reg + 1, r⟩) := by
        by_cases hprev : prev = some (some r)
        · subst hprev
          simp only [enc, if_true, List.nil_append] at hp
          simp only [Aligned, countRun, if_true] at hal
          obtain ⟨hrem, hal⟩ := hal
          obtain ⟨hres, hregister⟩ := hal (by omega)
          obtain ⟨rest, remaining, register, resolution⟩ := p
          simp only at hrem hres hregister hp
          subst hrem hres hregister
          unfold RegisterParser.next
          rw [if_neg (by simp [hp]; intro h; simp [h] at hwlen; omega)]
          rw [if_pos (by simp)]
          simp only [hp]
          rw [if_neg (by simp; omega)]
          simp
        · simp only [enc, hprev, if_false, List.append_assoc] at hp
          have hrem : p.remaining = 0 := by
            unfold Aligned at hal
            split at hal
            · next r' =>
              have : r ≠ r' := by rintro rfl; exact hprev rfl
              simp [countRun, this] at hal; exact hal.1
            · exact hal
          have hcount : countRun r (items.map Prod.fst) < 127 := by
            rcases hruns.1 with h | h
            · exact absurd h hprev
            · exact h
          unfold RegisterParser.next
          rw [if_neg (by
            rw [hp]; intro h
            have := congrArg List.length h
            simp at this; obtain ⟨_, h2, _⟩ := this
            subst h2; simp at hwlen; omega)]
          rw [if_neg (by simp [hrem]), hp]
          rw [scan_header _ _ r _ (by omega) (by omega) (by omega) (by simp; omega)]
          simp
      rw [loop_step hnext hwlen]
      rw [ih (reg + 1) (some (some r)) _ rfl ⟨rfl, fun _ => ⟨rfl, rfl⟩⟩ hsz' hruns.2 (by omega)]
      rw [← prepend_append]; rfl

/-! ## Termination and bounds for arbitrary input -/

theorem drop_suffix_length (l : Bytes) (n : Nat) : (l.drop n).length ≤ l.length := by simp

theorem suffix_trans {a b c : Bytes} (h1 : a <:+ b) (h2 : b <:+ c) : a <:+ c := h1.trans h2

theorem block_valid {rest : Bytes} {count old : Nat} {r res : Res} {reg : Nat} {p : RegisterParser}
    (h : RegisterParser.block rest count old r = (some (reg, res), p)) :
    p.rest <:+ rest ∧ res.size ≤ p.rest.length := by
  unfold RegisterParser.block at h
  cases hv : readVaruint 0 rest with
  | mk v k =>
    rw [hv] at h
    cases v with
    | none => simp at h
    | some v =>
      simp only at h
      split at h
      · simp at h
      · next hl =>
        simp only [Prod.mk.injEq, Option.some.injEq] at h
        obtain ⟨⟨rfl, rfl⟩, rfl⟩ := h
        exact ⟨List.drop_suffix _ _, by simpa using hl⟩

theorem scan_valid {reg0 : Nat} {res0 : Res} {data : Bytes} {reg : Nat} {res : Res}
    {p : RegisterParser} (h : RegisterParser.scan reg0 res0 data = (some (reg, res), p)) :
    p.rest <:+ data ∧ res.size ≤ p.rest.length := by
  induction hn : data.length using Nat.strongRecOn generalizing data reg0 res0 with
  | ind n ih =>
    cases data with
    | nil => simp [RegisterParser.scan] at h
    | cons cmd rest =>
      unfold RegisterParser.scan at h
      split at h
      · obtain ⟨h1, h2⟩ := ih rest.length (by simp at hn; omega) h rfl
        exact ⟨h1.trans (List.suffix_cons _ _), h2⟩
      · cases rest with
        | nil => simp at h
        | cons b rest' =>
          simp only at h
          split at h
          · split at h
            · cases rest' with
              | nil => simp at h
              | cons c rest'' =>
                simp only at h
                split at h
                · obtain ⟨h1, h2⟩ := ih (c :: rest'').length (by simp at hn ⊢; omega) h rfl
                  exact ⟨h1.trans ((List.suffix_cons _ _).trans (List.suffix_cons _ _)), h2⟩
                · obtain ⟨h1, h2⟩ := block_valid h
                  exact ⟨h1.trans ((List.suffix_cons _ _).trans (List.suffix_cons _ _)), h2⟩
            · obtain ⟨h1, h2⟩ := block_valid h
              exact ⟨h1.trans (List.suffix_cons _ _), h2⟩
          · simp at h

theorem next_valid {p p' : RegisterParser} {reg : Nat} {res : Res}
    (h : p.next = (some (reg, res), p')) :
    p'.rest <:+ p.rest ∧ res.size ≤ p'.rest.length := by
  unfold RegisterParser.next at h
  split at h
  · simp at h
  · split at h
    · simp only at h
      split at h
      · simp at h
      · next hl =>
        simp only [Prod.mk.injEq, Option.some.injEq] at h
        obtain ⟨⟨rfl, rfl⟩, rfl⟩ := h
        exact ⟨List.suffix_refl _, by simpa using hl⟩
    · exact scan_valid h

theorem layout_gap {gap data : Bytes} {items} (h : Layout data items) : Layout (gap ++ data) items := by
  cases h with
  | nil => exact .nil _
  | cons g v r reg res items hl hr =>
    have := Layout.cons (gap ++ g) v r reg res items hl hr
    simpa [List.append_assoc] using this

theorem loop_total {fuel : Nat} {p : RegisterParser} (hf : p.rest.length < fuel) :
    ∃ l, RegisterParser.loop fuel p = some (.ok l) ∧ Layout p.rest l := by
  induction fuel generalizing p with
  | zero => omega
  | succ fuel ih =>
    unfold RegisterParser.loop
    cases hn : p.next with
    | mk o p' =>
      cases o with
      | none => exact ⟨[], rfl, .nil _⟩
      | some x =>
        obtain ⟨reg, res⟩ := x
        obtain ⟨h1, h2⟩ := next_valid hn
        have hpos := res.size_pos
        have hle := h1.length_le
        simp only [RegisterParser.read]
        rw [if_neg (by omega)]
        obtain ⟨l, h3, h4⟩ := ih (p := { p' with rest := p'.rest.drop res.size })
          (by simp; omega)
        simp only [h3]
        refine ⟨_, rfl, ?_⟩
        obtain ⟨g, hg⟩ := h1
        rw [← hg]
        apply layout_gap
        have := Layout.cons [] (p'.rest.take res.size) (p'.rest.drop res.size) reg res l
          (by simp; omega) h4
        simpa using this

/-- More fuel does not change the result. -/
theorem loop_fuel {fuel fuel' : Nat} {p : RegisterParser} (hf : p.rest.length < fuel)
    (hle : fuel ≤ fuel') : RegisterParser.loop fuel' p = RegisterParser.loop fuel p := by
  induction fuel generalizing p fuel' with
  | zero => omega
  | succ fuel ih =>
    obtain ⟨f', rfl⟩ : ∃ f', fuel' = f' + 1 := ⟨fuel' - 1, by omega⟩
    unfold RegisterParser.loop
    cases hn : p.next with
    | mk o p' =>
      cases o with
      | none => rfl
      | some x =>
        obtain ⟨reg, res⟩ := x
        obtain ⟨h1, h2⟩ := next_valid hn
        have hpos := res.size_pos
        have hle := h1.length_le
        simp only [RegisterParser.read]
        rw [if_neg (by omega)]
        simp only
        rw [ih (by simp; omega) (by omega)]

end Verif.Multiplex
