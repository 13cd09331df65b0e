import Verif.Multiplex.QueryLemmas

/-! # The documented decoder applied to what the combiner writes -/

namespace Verif.Multiplex

open Verif Verif.Float Verif.Multiplex.Spec

/-- Induction over the blocks of a list of entries. -/
theorem block_induction {P : Nat → List (Option Res × Bytes) → Prop}
    (nil : ∀ reg, P reg [])
    (skip : ∀ reg w items, P (reg + 1) items → P reg ((none, w) :: items))
    (block : ∀ reg r w (ws : List Bytes) rest, countRun r (rest.map Prod.fst) = 0 →
      P (reg + 1 + ws.length) rest →
      P reg ((some r, w) :: (ws.map fun v => (some r, v)) ++ rest)) :
    ∀ items reg, P reg items := by
  have split : ∀ (r : Res) (items : List (Option Res × Bytes)),
      ∃ (ws : List Bytes) (rest : List (Option Res × Bytes)),
        items = ws.map (fun v => (some r, v)) ++ rest ∧ countRun r (rest.map Prod.fst) = 0 := by
    intro r items
    induction items with
    | nil => exact ⟨[], [], rfl, rfl⟩
    | cons it items ih =>
      obtain ⟨x, w⟩ := it
      by_cases hx : x = some r
      · subst hx
        obtain ⟨ws, rest, h1, h2⟩ := ih
        exact ⟨w :: ws, rest, by simp [h1], h2⟩
      · exact ⟨[], (x, w) :: items, rfl, by simp [countRun, hx]⟩
  intro items
  induction hn : items.length using Nat.strongRecOn generalizing items with
  | ind n ih =>
    intro reg
    cases items with
    | nil => exact nil reg
    | cons it items =>
      obtain ⟨x, w⟩ := it
      simp at hn
      cases x with
      | none => exact skip _ _ _ (ih items.length (by omega) items rfl _)
      | some r =>
        obtain ⟨ws, rest, h1, h2⟩ := split r items
        subst h1
        simp at hn
        exact block reg r w ws rest h2 (ih rest.length (by omega) rest rfl _)

/-- Only the resolution of the first entry is compared with the previous
one. -/
theorem enc_fresh (base reg : Nat) (r : Res) (rest : List (Option Res × Bytes))
    (h : countRun r (rest.map Prod.fst) = 0) :
    enc base reg (some (some r)) rest = enc base reg none rest := by
  cases rest with
  | nil => rfl
  | cons it rest =>
    obtain ⟨x, w⟩ := it
    cases x with
    | none => rfl
    | some r' =>
      have : r ≠ r' := by
        rintro rfl; simp [countRun] at h
      simp [enc, this]

theorem countRun_block (r : Res) (ws : List Bytes) (rest : List (Option Res × Bytes))
    (h : countRun r (rest.map Prod.fst) = 0) :
    countRun r (((ws.map fun v => (some r, v)) ++ rest).map Prod.fst) = ws.length := by
  induction ws with
  | nil => simpa using h
  | cons v ws ih => simp [countRun] at ih ⊢; exact ih

theorem enc_same (base reg : Nat) (r : Res) (ws : List Bytes) (rest : List (Option Res × Bytes))
    (h : countRun r (rest.map Prod.fst) = 0) :
    enc base reg (some (some r)) ((ws.map fun v => (some r, v)) ++ rest) =
      ws.flatten ++ enc base (reg + ws.length) none rest := by
  induction ws generalizing reg with
  | nil => simpa using enc_fresh base reg r rest h
  | cons v ws ih =>
    simp only [List.map_cons, List.cons_append, enc, if_true, List.nil_append, ih,
      List.flatten_cons, List.append_assoc, List.length_cons]
    rw [show reg + 1 + ws.length = reg + (ws.length + 1) by omega]

theorem enc_block (base reg : Nat) (r : Res) (w : Bytes) (ws : List Bytes)
    (rest : List (Option Res × Bytes)) (h : countRun r (rest.map Prod.fst) = 0) :
    enc base reg none ((some r, w) :: (ws.map fun v => (some r, v)) ++ rest) =
      header base r (1 + ws.length) reg ++ ((w :: ws).flatten
        ++ enc base (reg + 1 + ws.length) none rest) := by
  simp only [List.cons_append, enc]
  rw [if_neg (by simp), countRun_block r ws rest h, enc_same _ _ _ _ _ h]
  simp

theorem runsOk_fresh (r : Res) (rest : List (Option Res))
    (h : countRun r rest = 0) : RunsOk (some (some r)) rest → RunsOk none rest := by
  cases rest with
  | nil => exact id
  | cons x rest =>
    cases x with
    | none => exact id
    | some r' =>
      have : r ≠ r' := by rintro rfl; simp [countRun] at h
      simp [RunsOk, this]

theorem runsOk_block (r : Res) (w : Bytes) (ws : List Bytes) (rest : List (Option Res × Bytes))
    (h : countRun r (rest.map Prod.fst) = 0)
    (hr : RunsOk none (((some r, w) :: (ws.map fun v => (some r, v)) ++ rest).map Prod.fst)) :
    ws.length < 127 ∧ RunsOk none (rest.map Prod.fst) := by
  simp only [List.cons_append, List.map_cons, RunsOk, reduceCtorEq, false_or] at hr
  rw [countRun_block r ws rest h] at hr
  refine ⟨hr.1, ?_⟩
  have hr := hr.2
  clear w
  have aux : ∀ ws : List Bytes, RunsOk (some (some r))
      (((ws.map fun v => (some r, v)) ++ rest).map Prod.fst) → RunsOk none (rest.map Prod.fst) := by
    intro ws
    induction ws with
    | nil => intro hr; exact runsOk_fresh r _ h (by simpa using hr)
    | cons v ws ih => intro hr; exact ih (by simp [RunsOk] at hr ⊢; exact hr)
  exact aux ws hr

/-! ## The decoder on one block -/

theorem takeValues_le {size n : Nat} {bs rest : Bytes} {vs : List Bytes}
    (h : takeValues size n bs = some (vs, rest)) : rest.length ≤ bs.length := by
  induction n generalizing bs vs rest with
  | zero => simp [takeValues] at h; simp [h]
  | succ n ih =>
    simp only [takeValues] at h
    split at h
    · simp at h
    · split at h
      · simp at h
      · next heq =>
        have := ih heq
        simp only [Option.some.injEq, Prod.mk.injEq] at h
        simp at this
        rw [← h.2]; omega

theorem varuint_le {k : Nat} {bs rest : Bytes} {v : Nat} (h : varuint k bs = some (v, rest)) :
    rest.length ≤ bs.length := by
  obtain ⟨_, used, h2, _⟩ := spec_varuint_some h
  subst h2; simp

theorem countAndStart_le {t c s : Nat} {bs rest : Bytes}
    (h : countAndStart t bs = some (c, s, rest)) : rest.length ≤ bs.length := by
  unfold countAndStart at h
  split at h
  · simp at h
  · next heq =>
    have h1 : ‹Bytes›.length ≤ bs.length := by
      split at heq
      · exact varuint_le heq
      · simp at heq; rw [heq.2]
    split at h
    · simp at h
    · next heq2 =>
      have h2 := varuint_le heq2
      simp at h
      rw [← h.2.2]; omega

theorem subframe_le {t : Nat} {bs rest : Bytes} {s : Option Sub}
    (h : subframe t bs = some (s, rest)) : rest.length ≤ bs.length := by
  unfold subframe at h
  split at h
  · split at h
    · simp at h
    · next heq =>
      have h1 := countAndStart_le heq
      split at h
      · simp at h
      · next heq2 =>
        have h2 := takeValues_le heq2
        simp at h; rw [← h.2]; omega
  · split at h
    · split at h
      · simp at h
      · next heq =>
        have h1 := countAndStart_le heq
        simp at h; rw [← h.2]; omega
    · split at h
      · split at h
        · simp at h
        · next heq =>
          have h1 := countAndStart_le heq
          split at h
          · simp at h
          · next heq2 =>
            have h2 := takeValues_le heq2
            simp at h; rw [← h.2]; omega
      · split at h
        · split at h
          · simp at h
          · next heq =>
            have h1 := varuint_le heq
            split at h
            · simp at h
            · next heq2 =>
              have h2 := varuint_le heq2
              simp at h; rw [← h.2]; omega
        · split at h
          · simp at h; rw [h.2]
          · simp at h

theorem decodeFuel_irrel (bs : Bytes) (f f' : Nat) (h : bs.length ≤ f) (h' : bs.length ≤ f') :
    decodeFuel f bs = decodeFuel f' bs := by
  induction f generalizing bs f' with
  | zero =>
    have : bs = [] := List.length_eq_zero_iff.mp (by omega)
    subst this; cases f' <;> rfl
  | succ f ih =>
    cases bs with
    | nil => cases f' <;> rfl
    | cons t bs =>
      simp at h h'
      obtain ⟨g, rfl⟩ : ∃ g, f' = g + 1 := ⟨f' - 1, by omega⟩
      simp only [decodeFuel]
      split
      · rfl
      · next heq =>
        have := subframe_le heq
        rw [ih _ g (by omega) (by omega)]

theorem decode_cons {t : UInt8} {bs rest : Bytes} {s : Option Sub}
    (h : subframe t.toNat bs = some (s, rest)) :
    decode (t :: bs) = (decode rest).map (s.toList ++ ·) := by
  unfold decode
  simp only [List.length_cons, decodeFuel, h]
  have := subframe_le h
  rw [decodeFuel_irrel rest bs.length rest.length this (Nat.le_refl _)]
  cases decodeFuel rest.length rest <;> cases s <;> rfl

theorem decode_nil : decode [] = some [] := rfl

theorem takeValues_flatten (r : Res) (vs : List Bytes) (tail : Bytes)
    (h : ∀ v ∈ vs, v.length = r.size) :
    takeValues r.size vs.length (vs.flatten ++ tail) = some (vs, tail) := by
  induction vs with
  | nil => rfl
  | cons v vs ih =>
    have hv := h v (by simp)
    simp only [List.flatten_cons, List.length_cons, takeValues, List.append_assoc]
    rw [if_neg (by simp; omega)]
    rw [← hv, List.drop_left, List.take_left, hv, ih (fun v hv => h v (List.mem_cons_of_mem _ hv))]

theorem resOfType_bits (base : Nat) (hb : BaseOk base) (r : Res) (n : Nat) (hn : n ≤ 3) :
    resOfType (base + r.commandBits + n) = r ∧ (base + r.commandBits + n) % 4 = n := by
  have : n = 0 ∨ n = 1 ∨ n = 2 ∨ n = 3 := by omega
  rcases hb with rfl | rfl | rfl <;> rcases this with rfl | rfl | rfl | rfl <;>
    cases r <;> exact ⟨rfl, rfl⟩

/-- The head of a block: type byte, then count and start register. -/
theorem header_split {base : Nat} (hb : BaseOk base) (r : Res) {count reg : Nat} (data : Bytes)
    (h0 : 0 < count) (hc : count < 128) (hreg : reg < 2 ^ 35) :
    ∃ (t : UInt8) (bs : Bytes), header base r count reg ++ data = t :: bs ∧
      base ≤ t.toNat ∧ t.toNat < base + 16 ∧ resOfType t.toNat = r ∧
      countAndStart t.toNat bs = some (count, reg, data) := by
  have hcb := commandBits_le r
  have hv := spec_varuint_write 4 reg data (by simpa using hreg)
  unfold header
  by_cases hle : count ≤ 3
  · obtain ⟨h1, h2⟩ := resOfType_bits base hb r count hle
    have hbd := base_bound hb r
    have hto : (UInt8.ofNat (base + r.commandBits + count)).toNat = base + r.commandBits + count := by
      simp; omega
    refine ⟨_, writeVaruint reg ++ data, by rw [if_pos hle]; rfl, ?_⟩
    rw [hto]
    refine ⟨by omega, by omega, h1, ?_⟩
    unfold countAndStart
    simp only [h2]
    rw [if_neg (by omega)]
    simp only [hv]
  · obtain ⟨h1, h2⟩ := resOfType_bits base hb r 0 (by omega)
    simp only [Nat.add_zero] at h1 h2
    have hbd := base_bound hb r
    have hto : (UInt8.ofNat (base + r.commandBits)).toNat = base + r.commandBits := by
      simp; omega
    have hto2 : (UInt8.ofNat count).toNat = count := by simp; omega
    refine ⟨_, UInt8.ofNat count :: (writeVaruint reg ++ data), by rw [if_neg hle]; rfl, ?_⟩
    rw [hto]
    refine ⟨by omega, by omega, h1, ?_⟩
    have hv2 : varuint 5 (UInt8.ofNat count :: (writeVaruint reg ++ data)) =
        some (count, writeVaruint reg ++ data) := by
      unfold varuint; rw [hto2, if_pos hc]
    unfold countAndStart
    simp only [h2, if_true, hv2, hv]

theorem decode_write_block (r : Res) {reg : Nat} (vs : List Bytes) (tail : Bytes)
    (h0 : 0 < vs.length) (hc : vs.length < 128) (hreg : reg < 2 ^ 35)
    (hsz : ∀ v ∈ vs, v.length = r.size) :
    decode (header 0x00 r vs.length reg ++ (vs.flatten ++ tail)) =
      (decode tail).map (Sub.write r reg vs :: ·) := by
  obtain ⟨t, bs, h1, h2, h3, h4, h5⟩ :=
    header_split (Or.inl rfl) r (vs.flatten ++ tail) h0 hc hreg
  rw [h1]
  have : subframe t.toNat bs = some (some (.write r reg vs), tail) := by
    unfold subframe
    rw [if_pos (by omega)]
    simp only [h5, h4, takeValues_flatten r vs tail hsz]
  rw [decode_cons this]; rfl

theorem decode_reply_block (r : Res) {reg : Nat} (vs : List Bytes) (tail : Bytes)
    (h0 : 0 < vs.length) (hc : vs.length < 128) (hreg : reg < 2 ^ 35)
    (hsz : ∀ v ∈ vs, v.length = r.size) :
    decode (header 0x20 r vs.length reg ++ (vs.flatten ++ tail)) =
      (decode tail).map (Sub.reply r reg vs :: ·) := by
  obtain ⟨t, bs, h1, h2, h3, h4, h5⟩ :=
    header_split (Or.inr (Or.inr rfl)) r (vs.flatten ++ tail) h0 hc hreg
  rw [h1]
  have : subframe t.toNat bs = some (some (.reply r reg vs), tail) := by
    unfold subframe
    rw [if_neg (by omega), if_neg (by omega), if_pos (by omega)]
    simp only [h5, h4, takeValues_flatten r vs tail hsz]
  rw [decode_cons this]; rfl

theorem decode_read_block (r : Res) {reg count : Nat} (tail : Bytes)
    (h0 : 0 < count) (hc : count < 128) (hreg : reg < 2 ^ 35) :
    decode (header 0x10 r count reg ++ tail) =
      (decode tail).map (Sub.read r reg count :: ·) := by
  obtain ⟨t, bs, h1, h2, h3, h4, h5⟩ :=
    header_split (Or.inr (Or.inl rfl)) r tail h0 hc hreg
  rw [h1]
  have : subframe t.toNat bs = some (some (.read r reg count), tail) := by
    unfold subframe
    rw [if_neg (by omega), if_pos (by omega)]
    simp only [h5, h4]
  rw [decode_cons this]; rfl

/-- NOP bytes in front are ignored. -/
theorem decode_nop (tail : Bytes) : decode (NOP :: tail) = decode tail := by
  have : subframe NOP.toNat tail = some (none, tail) := rfl
  rw [decode_cons this]; simp

theorem decode_nops (n : Nat) (tail : Bytes) :
    decode (List.replicate n NOP ++ tail) = decode tail := by
  induction n with
  | zero => rfl
  | succ n ih => simp [List.replicate_succ, decode_nop, ih]

/-! ## Whole lists of entries -/

theorem accesses_write_enc (items : List (Option Res × Bytes)) (reg : Nat) (tail : Bytes)
    (hsz : SizesOk items) (hruns : RunsOk none (items.map Prod.fst))
    (hreg : reg + items.length ≤ 2 ^ 35) :
    accesses (enc 0x00 reg none items ++ tail) =
      (accesses tail).map
        (((wantedValues reg items).map fun x => Access.write x.1 x.2.1 x.2.2) ++ ·) := by
  revert tail hsz hruns hreg
  refine block_induction (P := fun reg items => ∀ tail, SizesOk items →
    RunsOk none (items.map Prod.fst) → reg + items.length ≤ 2 ^ 35 →
    accesses (enc 0x00 reg none items ++ tail) = (accesses tail).map
        (((wantedValues reg items).map fun x => Access.write x.1 x.2.1 x.2.2) ++ ·))
    ?_ ?_ ?_ items reg
  · intro reg tail _ _ _
    simp [enc, wantedValues]
  · intro reg w items ih tail hsz hruns hreg
    simp at hreg
    have := ih tail (fun r v h => hsz r v (List.mem_cons_of_mem _ h))
      (by
        simp only [List.map_cons, RunsOk] at hruns
        revert hruns
        cases items.map Prod.fst with
        | nil => exact id
        | cons x xs => cases x <;> simp [RunsOk])
      (by omega)
    have he : ∀ l : List (Option Res × Bytes), enc 0x00 (reg + 1) (some none) l = enc 0x00 (reg + 1) none l := by
      intro l; cases l with
      | nil => rfl
      | cons x xs =>
        obtain ⟨x, w⟩ := x
        cases x <;> simp [enc]
    simp only [enc, wantedValues, he]
    exact this
  · intro reg r w ws rest h0 ih tail hsz hruns hreg
    obtain ⟨hlen, hruns'⟩ := runsOk_block r w ws rest h0 hruns
    simp at hreg
    have ih := ih tail
      (fun r' v h => hsz r' v (by simp [h])) hruns' (by omega)
    have hsz' : ∀ v ∈ w :: ws, v.length = r.size := by
      intro v hv
      refine hsz r v ?_
      simp only [List.mem_cons] at hv
      rcases hv with rfl | hv
      · simp
      · simp [hv]
    rw [enc_block _ _ _ _ _ _ h0]
    unfold accesses at ih ⊢
    rw [List.append_assoc, List.append_assoc]
    have := decode_write_block r (w :: ws) (reg := reg) (enc 0x00 (reg + 1 + ws.length) none rest ++ tail)
      (by simp) (by simp; omega) (by omega) hsz'
    simp only [List.length_cons, Nat.add_comm ws.length 1] at this
    rw [this, Option.map_map]
    have hnum : ∀ (ws : List Bytes) (reg : Nat), wantedValues reg ((ws.map fun v => (some r, v)) ++ rest)
        = (wantedValues reg (ws.map fun v => (some r, v))) ++ wantedValues (reg + ws.length) rest ∧
        (wantedValues reg (ws.map fun v => (some r, v))).map
          (fun x => Access.write x.1 x.2.1 x.2.2) = number (fun g v => .write g r v) reg ws := by
      intro ws
      induction ws with
      | nil => intro reg; simp [wantedValues, number]
      | cons v ws ih2 =>
        intro reg
        obtain ⟨i1, i2⟩ := ih2 (reg + 1)
        simp only [List.map_cons, List.cons_append, wantedValues, i1, number, List.length_cons, i2]
        refine ⟨?_, trivial⟩
        rw [show reg + 1 + ws.length = reg + (ws.length + 1) by omega]
    have key := hnum (w :: ws) reg
    simp only [List.map_cons, List.length_cons] at key
    rw [key.1, List.map_append, key.2, show reg + (ws.length + 1) = reg + 1 + ws.length by omega]
    cases hd : decode (enc 0x00 (reg + 1 + ws.length) none rest ++ tail) with
    | none => rw [hd] at ih; cases ht : decode tail with
      | none => simp
      | some l => rw [ht] at ih; simp at ih
    | some l => rw [hd] at ih; cases ht : decode tail with
      | none => rw [ht] at ih; simp at ih
      | some l' =>
        rw [ht] at ih
        simp only [Option.map_some, Option.some.injEq] at ih
        simp only [Option.map_some, Function.comp, List.flatMap_cons, ih, Sub.accesses, List.append_assoc]

/-- A leading ignored entry leaves the following ones at a block start. -/
theorem enc_skip (base reg : Nat) (l : List (Option Res × Bytes)) :
    enc base reg (some none) l = enc base reg none l := by
  cases l with
  | nil => rfl
  | cons x xs =>
    obtain ⟨x, w⟩ := x
    cases x <;> simp [enc]

theorem runsOk_skip {l : List (Option Res)} (h : RunsOk (some none) l) : RunsOk none l := by
  revert h
  cases l with
  | nil => exact id
  | cons x xs => cases x <;> simp [RunsOk]

/-- Bytes of each wanted register. -/
def withValues (regs : Nat → Res → Bytes) (reg : Nat) : List (Option Res) → List (Option Res × Bytes)
  | [] => []
  | none :: rs => (none, []) :: withValues regs (reg + 1) rs
  | some r :: rs => (some r, regs reg r) :: withValues regs (reg + 1) rs

theorem withValues_fst (regs : Nat → Res → Bytes) (reg : Nat) (rs : List (Option Res)) :
    (withValues regs reg rs).map Prod.fst = rs := by
  induction rs generalizing reg with
  | nil => rfl
  | cons x rs ih => cases x <;> simp [withValues, ih]

theorem withValues_length (regs : Nat → Res → Bytes) (reg : Nat) (rs : List (Option Res)) :
    (withValues regs reg rs).length = rs.length := by
  have := congrArg List.length (withValues_fst regs reg rs)
  simpa using this

theorem wantedValues_withValues (regs : Nat → Res → Bytes) (reg : Nat) (rs : List (Option Res)) :
    wantedValues reg (withValues regs reg rs) =
      (wanted reg rs).map fun x => (x.1, x.2, regs x.1 x.2) := by
  induction rs generalizing reg with
  | nil => rfl
  | cons x rs ih => cases x <;> simp [withValues, wantedValues, wanted, ih]

theorem noValues_eq_withValues (reg : Nat) (rs : List (Option Res)) :
    noValues rs = withValues (fun _ _ => []) reg rs := by
  induction rs generalizing reg with
  | nil => rfl
  | cons x rs ih =>
    cases x <;> simp only [noValues, List.map_cons, withValues] at ih ⊢ <;> rw [ih (reg + 1)]

/-- Induction over blocks for plain resolution lists. -/
theorem res_block_induction {P : Nat → List (Option Res) → Prop}
    (nil : ∀ reg, P reg [])
    (skip : ∀ reg rs, P (reg + 1) rs → P reg (none :: rs))
    (block : ∀ reg r n rest, countRun r rest = 0 → P (reg + 1 + n) rest →
      P reg (List.replicate (n + 1) (some r) ++ rest)) :
    ∀ rs reg, P reg rs := by
  have := block_induction (P := fun reg items => P reg (items.map Prod.fst))
    (by intro reg; exact nil reg)
    (by intro reg w items ih; exact skip _ _ ih)
    (by
      intro reg r w ws rest h0 ih
      have := block reg r ws.length (rest.map Prod.fst) h0 ih
      simpa [List.replicate_succ] using this)
  intro rs reg
  have := this (noValues rs) reg
  simpa using this

theorem withValues_replicate (regs : Nat → Res → Bytes) (reg n : Nat) (r : Res)
    (rest : List (Option Res)) :
    withValues regs reg (List.replicate n (some r) ++ rest) =
      (((List.range n).map fun i => regs (reg + i) r).map fun v => (some r, v))
        ++ withValues regs (reg + n) rest := by
  induction n generalizing reg with
  | zero => simp
  | succ n ih =>
    simp only [List.replicate_succ, List.cons_append, withValues, ih, List.range_succ_eq_map,
      List.map_cons, List.map_map, Nat.add_zero, Function.comp_def]
    simp only [Nat.succ_eq_add_one, Nat.add_assoc, Nat.add_comm 1]

theorem enc_replicate (base : Nat) (regs : Nat → Res → Bytes) (reg n : Nat) (r : Res)
    (rest : List (Option Res)) (h : countRun r rest = 0) :
    enc base reg none (withValues regs reg (List.replicate (n + 1) (some r) ++ rest)) =
      header base r (n + 1) reg ++ (((List.range (n + 1)).flatMap fun i => regs (reg + i) r)
        ++ enc base (reg + 1 + n) none (withValues regs (reg + 1 + n) rest)) := by
  have hf : countRun r ((withValues regs (reg + 1 + n) rest).map Prod.fst) = 0 := by
    rw [withValues_fst]; exact h
  have := enc_block base reg r (regs reg r)
    ((List.range n).map fun i => regs (reg + 1 + i) r) (withValues regs (reg + 1 + n) rest) hf
  rw [show withValues regs reg (List.replicate (n + 1) (some r) ++ rest) =
      (some r, regs reg r) :: List.map (fun v => (some r, v))
        (List.map (fun i => regs (reg + 1 + i) r) (List.range n)) ++ withValues regs (reg + 1 + n) rest by
    simp only [List.replicate_succ, List.cons_append, withValues, withValues_replicate]]
  rw [this]
  simp only [List.length_map, List.length_range, Nat.add_comm 1 n]
  congr 2
  simp only [List.range_succ_eq_map, List.flatMap_cons, List.flatten_cons, Nat.add_zero,
    List.flatMap_map]
  congr 1
  rw [List.flatMap_def]
  congr 1
  apply List.map_congr_left
  intro i _
  simp only [Nat.succ_eq_add_one, Nat.add_assoc, Nat.add_comm 1]

theorem runsOk_replicate (r : Res) (n : Nat) (rest : List (Option Res)) (h : countRun r rest = 0)
    (hr : RunsOk none (List.replicate (n + 1) (some r) ++ rest)) :
    n < 127 ∧ RunsOk none rest := by
  have := runsOk_block r [] (List.replicate n []) (noValues rest) (by simpa using h)
    (by simpa [List.replicate_succ, Function.comp_def] using hr)
  simpa using this

theorem encVaruint_eq (k v : Nat) (h : v < 128 ^ (k + 1)) : encVaruint (k + 1) v = writeVaruint v := by
  induction k generalizing v with
  | zero =>
    have hv : v < 128 := by simpa using h
    simp [encVaruint, hv, writeVaruint_small hv]
  | succ k ih =>
    by_cases hv : v < 128
    · simp [encVaruint, hv, writeVaruint_small hv]
    · have h1 : v / 128 < 128 ^ (k + 1) := by
        rw [Nat.div_lt_iff_lt_mul (by decide)]; rw [Nat.pow_succ] at h; exact h
      rw [writeVaruint_large (by omega), encVaruint, if_neg hv, ih _ h1]

/-- The documented reply to a read block is the combiner's reply block. -/
theorem answerSub_read (regs : Nat → Res → Bytes) (r : Res) {reg count : Nat}
    (h0 : 0 < count) (hc : count < 128) (hreg : reg < 2 ^ 35) :
    answerSub regs (.read r reg count) =
      header 0x20 r count reg ++ (List.range count).flatMap fun i => regs (reg + i) r := by
  have ht : replyType r = 0x20 + r.commandBits := by cases r <;> rfl
  unfold answerSub header
  dsimp only
  rw [encVaruint_eq 4 reg (by simpa using hreg), ht]
  by_cases hle : count ≤ 3
  · rw [if_pos ⟨h0, hle⟩, if_pos hle]
  · rw [if_neg (by omega), if_neg hle]
    simp [encVaruint, hc]

theorem read_enc (rs : List (Option Res)) (reg : Nat) (tail : Bytes)
    (hruns : RunsOk none rs) (hreg : reg + rs.length ≤ 2 ^ 35) :
    (accesses (enc 0x10 reg none (noValues rs) ++ tail) =
      (accesses tail).map (((wanted reg rs).map fun x => Access.read x.1 x.2) ++ ·)) ∧
    ∀ regs, answer regs (enc 0x10 reg none (noValues rs) ++ tail) =
      (answer regs tail).map (enc 0x20 reg none (withValues regs reg rs) ++ ·) := by
  revert tail hruns hreg
  refine res_block_induction (P := fun reg rs => ∀ tail, RunsOk none rs →
    reg + rs.length ≤ 2 ^ 35 →
    (accesses (enc 0x10 reg none (noValues rs) ++ tail) =
      (accesses tail).map (((wanted reg rs).map fun x => Access.read x.1 x.2) ++ ·)) ∧
    ∀ regs, answer regs (enc 0x10 reg none (noValues rs) ++ tail) =
      (answer regs tail).map (enc 0x20 reg none (withValues regs reg rs) ++ ·))
    ?_ ?_ ?_ rs reg
  · intro reg tail _ _
    simp [enc, wanted, noValues, withValues]
  · intro reg rs ih tail hruns hreg
    simp at hreg
    have := ih tail (runsOk_skip hruns) (by omega)
    simp only [noValues, List.map_cons, withValues, enc, enc_skip, wanted]
    exact this
  · intro reg r n rest h0 ih tail hruns hreg
    obtain ⟨hlen, hruns'⟩ := runsOk_replicate r n rest h0 hruns
    simp at hreg
    obtain ⟨ih1, ih2⟩ := ih tail hruns' (by omega)
    rw [noValues_eq_withValues reg, enc_replicate _ _ _ _ _ _ h0,
      show List.flatMap (fun i => ([] : Bytes)) (List.range (n + 1)) = [] by
        simp, List.nil_append,
      ← noValues_eq_withValues, List.append_assoc]
    have hdec := decode_read_block r (reg := reg) (count := n + 1)
      (enc 0x10 (reg + 1 + n) none (noValues rest) ++ tail) (by omega) (by omega) (by omega)
    constructor
    · unfold accesses at ih1 ⊢
      rw [hdec, Option.map_map]
      have hw : ∀ n reg, wanted reg (List.replicate n (some r) ++ rest) =
          ((List.range n).map fun i => (reg + i, r)) ++ wanted (reg + n) rest := by
        intro n
        induction n with
        | zero => intro reg; simp
        | succ n ihn =>
          intro reg
          simp only [List.replicate_succ, List.cons_append, wanted, ihn, List.range_succ_eq_map,
            List.map_cons, List.map_map, Nat.add_zero, Function.comp_def]
          simp only [Nat.succ_eq_add_one, Nat.add_assoc, Nat.add_comm 1]
      rw [hw, show reg + (n + 1) = reg + 1 + n by omega]
      cases hd : decode (enc 0x10 (reg + 1 + n) none (noValues rest) ++ tail) with
      | none => rw [hd] at ih1; cases ht : decode tail with
        | none => simp
        | some l => rw [ht] at ih1; simp at ih1
      | some l => rw [hd] at ih1; cases ht : decode tail with
        | none => rw [ht] at ih1; simp at ih1
        | some l' =>
          rw [ht] at ih1
          simp only [Option.map_some, Option.some.injEq] at ih1
          simp only [Option.map_some, Function.comp_def, List.flatMap_cons, ih1, Sub.accesses,
            List.map_append, List.map_map, List.append_assoc]
    · intro regs
      have ih2 := ih2 regs
      unfold answer at ih2 ⊢
      rw [hdec, Option.map_map, enc_replicate _ _ _ _ _ _ h0]
      cases hd : decode (enc 0x10 (reg + 1 + n) none (noValues rest) ++ tail) with
      | none => rw [hd] at ih2; cases ht : decode tail with
        | none => simp
        | some l => rw [ht] at ih2; simp at ih2
      | some l => rw [hd] at ih2; cases ht : decode tail with
        | none => rw [ht] at ih2; simp at ih2
        | some l' =>
          rw [ht] at ih2
          simp only [Option.map_some, Option.some.injEq] at ih2
          simp only [Option.map_some, Function.comp_def, List.flatMap_cons, ih2,
            answerSub_read regs r (reg := reg) (count := n + 1) (by omega) (by omega) (by omega),
            List.append_assoc]

/-- The announced size is the size of the reply. -/
theorem encSize_eq (base : Nat) (regs : Nat → Res → Bytes)
    (hsz : ∀ reg r, (regs reg r).length = r.size) (rs : List (Option Res)) (reg : Nat) :
    encSize base reg none rs = (enc 0x20 reg none (withValues regs reg rs)).length := by
  refine res_block_induction (P := fun reg rs =>
    encSize base reg none rs = (enc 0x20 reg none (withValues regs reg rs)).length)
    ?_ ?_ ?_ rs reg
  · intro reg; rfl
  · intro reg rs ih
    have : ∀ l reg, encSize base reg (some none) l = encSize base reg none l := by
      intro l reg; cases l with
      | nil => rfl
      | cons x xs => cases x <;> simp [encSize]
    simp only [encSize, withValues, enc, enc_skip, this]
    exact ih
  · intro reg r n rest h0 ih
    rw [enc_replicate _ _ _ _ _ _ h0]
    have hcr : ∀ n, countRun r (List.replicate n (some r) ++ rest) = n := by
      intro n; induction n with
      | zero => simpa using h0
      | succ n ihn => simp [List.replicate_succ, countRun, ihn]
    have hsame : ∀ n reg, encSize base reg (some (some r)) (List.replicate n (some r) ++ rest)
        = encSize base (reg + n) none rest := by
      intro n
      induction n with
      | zero =>
        intro reg
        cases rest with
        | nil => rfl
        | cons x rest =>
          cases x with
          | none => rfl
          | some r' =>
            have : r ≠ r' := by rintro rfl; simp [countRun] at h0
            simp [encSize, this]
      | succ n ihn =>
        intro reg
        simp only [List.replicate_succ, List.cons_append, encSize, if_true, ihn, Nat.zero_add]
        rw [show reg + 1 + n = reg + (n + 1) by omega]
    have hlen : ((List.range (n + 1)).flatMap fun i => regs (reg + i) r).length
        = (n + 1) * r.size := by
      simp only [List.length_flatMap, hsz, List.map_const', List.length_range, List.sum_replicate_nat]
    simp only [List.replicate_succ, List.cons_append, encSize, hcr, hsame, reduceCtorEq, if_false]
    rw [List.length_append, List.length_append, hlen, ← ih, header_length base 0x20, Nat.add_comm 1 n]
    omega

end Verif.Multiplex
