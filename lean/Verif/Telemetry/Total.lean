import Verif.Telemetry.Model

/-!
# C29: parsing is total and depends on what it consumes only
-/

namespace Verif.Telemetry

open Verif

/-! ## Readers that look only at what they consume -/

/-- The reader consumes a prefix; if something is left, its result depends on
this prefix only. -/
def Local {α : Type} (p : P α) : Prop :=
  ∀ bs a rest, p bs = .ok (a, rest) → ∃ used, bs = used ++ rest ∧
    (rest ≠ [] → ∀ rest', p (used ++ rest') = .ok (a, rest'))

variable {α β : Type}

theorem local_pure (a : α) : Local (P.pure a) := by
  intro bs b rest h
  injection h with h
  injection h with h1 h2
  subst h1 h2
  exact ⟨[], rfl, fun _ _ => rfl⟩

theorem local_fail (e : Err) : Local (P.fail e : P α) := by
  intro bs b rest h
  cases h

theorem bind_ok_iff {p : P α} {f : α → P β} {bs : Bytes} {b : β} {rest : Bytes} :
    p.bind f bs = .ok (b, rest) ↔ ∃ a mid, p bs = .ok (a, mid) ∧ f a mid = .ok (b, rest) := by
  unfold P.bind
  constructor
  · intro h
    split at h
    · cases h
    · next a mid he => exact ⟨a, mid, he, h⟩
  · rintro ⟨a, mid, h1, h2⟩
    rw [h1]; exact h2

theorem local_bind {p : P α} {f : α → P β} (hp : Local p) (hf : ∀ a, Local (f a)) :
    Local (p.bind f) := by
  intro bs b rest h
  obtain ⟨a, mid, h1, h2⟩ := bind_ok_iff.mp h
  obtain ⟨u1, e1, g1⟩ := hp _ _ _ h1
  obtain ⟨u2, e2, g2⟩ := hf a _ _ _ h2
  refine ⟨u1 ++ u2, by rw [e1, e2, List.append_assoc], fun hr rest' => ?_⟩
  refine bind_ok_iff.mpr ⟨a, u2 ++ rest', ?_, g2 hr rest'⟩
  rw [List.append_assoc]
  exact g1 (by rw [e2]; simp [hr]) _

theorem local_times {p : P α} (hp : Local p) (n : Nat) : Local (p.times n) := by
  induction n with
  | zero => exact local_pure []
  | succ n ih => exact local_bind hp fun a => local_bind ih fun as => local_pure _

theorem local_ite {c : Prop} [Decidable c] {p q : P α} (hp : Local p) (hq : Local q) :
    Local (if c then p else q) := by
  split
  · exact hp
  · exact hq

theorem local_varuintLoop (bs : Bytes) : ∀ r fk n rest, varuintLoop r fk bs = .ok (n, rest) →
    ∃ used, used ≠ [] ∧ bs = used ++ rest ∧ ∀ rest', varuintLoop r fk (used ++ rest') = .ok (n, rest') := by
  induction bs with
  | nil => intro r fk n rest h; cases h
  | cons b bs ih =>
    intro r fk n rest h
    simp only [varuintLoop] at h
    split at h
    · next hb =>
      injection h with h
      injection h with h1 h2
      subst h1 h2
      exact ⟨[b], by simp, rfl, fun rest' => by simp [varuintLoop, hb]⟩
    · next hb =>
      split at h
      · cases h
      · next hr =>
        obtain ⟨u, _, e, g⟩ := ih _ _ _ _ h
        refine ⟨b :: u, by simp, by rw [e]; rfl, fun rest' => ?_⟩
        simp only [List.cons_append, varuintLoop, if_neg hb, if_neg hr, g rest']

theorem local_varuint : Local readVaruint := by
  intro bs n rest h
  obtain ⟨u, _, e, g⟩ := local_varuintLoop bs _ _ _ _ h
  exact ⟨u, e, fun _ => g⟩

theorem varuint_strict {bs : Bytes} {n : Nat} {rest : Bytes} (h : readVaruint bs = .ok (n, rest)) :
    rest.length < bs.length := by
  obtain ⟨u, hu, e, _⟩ := local_varuintLoop bs _ _ _ _ h
  have := List.length_pos_iff.mpr hu
  rw [e, List.length_append]; omega

theorem local_readUpTo (n : Nat) : Local (readUpTo n) := by
  intro bs b rest h
  injection h with h
  injection h with h1 h2
  subst h1 h2
  refine ⟨bs.take n, (List.take_append_drop n bs).symm, fun hr rest' => ?_⟩
  have hl : (bs.take n).length = n := by
    rw [List.length_take]
    have := List.length_pos_iff.mpr hr
    rw [List.length_drop] at this
    omega
  have e : (bs.take n ++ rest').take n = bs.take n := List.take_left' hl
  have e2 : (bs.take n ++ rest').drop n = rest' := List.drop_left' hl
  simp only [readUpTo, e, e2]

theorem local_readBytes : Local readBytes := local_bind local_varuint local_readUpTo

theorem local_readString (E : Env) : Local (readString E) :=
  local_bind local_readBytes fun _ => local_ite (local_pure _) (local_fail _)

theorem local_readUnsigned (n : Nat) : Local (readUnsigned n) :=
  local_bind (local_readUpTo n) fun _ => local_ite (local_pure _) (local_fail _)

theorem local_readSigned (n : Nat) : Local (readSigned n) :=
  local_bind (local_readUnsigned n) fun _ => local_pure _

theorem local_valInt (v : Val) : Local (valInt v) := by
  cases v <;> first | exact local_pure _ | exact local_fail _

mutual

theorem local_read (E : Env) : (t : Ty) → Local (read E t)
  | .final => local_fail _
  | .null => local_pure _
  | .bool => local_bind (local_readUnsigned 1) fun _ => local_pure _
  | .int n => local_bind (local_readSigned n) fun _ => local_pure _
  | .uint n => local_bind (local_readUnsigned n) fun _ => local_pure _
  | .varint => local_fail _
  | .varuint => local_bind local_varuint fun _ => local_pure _
  | .f32 => local_bind (local_readUnsigned 4) fun _ => local_pure _
  | .f64 => local_bind (local_readUnsigned 8) fun _ => local_pure _
  | .bytes => local_bind local_readBytes fun _ => local_pure _
  | .string => local_bind (local_readString E) fun _ => local_pure _
  | .object _ fields => local_bind (local_readFields E fields) fun _ => local_pure _
  | .enum base _ => local_bind (local_read E base) fun v => local_bind (local_valInt v) fun _ =>
      local_pure _
  | .array t => local_bind local_varuint fun n => local_bind (local_times (local_read E t) n)
      fun _ => local_pure _
  | .fixedArray n t => local_bind (local_times (local_read E t) n) fun _ => local_pure _
  | .map t => local_bind local_varuint fun n => local_bind (local_times
      (local_bind (local_readString E) fun _ => local_bind (local_read E t) fun _ => local_pure _) n)
      fun _ => local_pure _
  | .union ts => local_bind local_varuint fun i => local_readNth E ts i
  | .timestamp => local_bind (local_readSigned 8) fun _ => local_pure _
  | .duration => local_bind (local_readSigned 8) fun _ => local_pure _

theorem local_readFields (E : Env) : (fs : Fields) → Local (readFields E fs)
  | .nil => local_pure _
  | .cons _ _ _ t _ rest => local_bind (local_read E t) fun _ =>
      local_bind (local_readFields E rest) fun _ => local_pure _

theorem local_readNth (E : Env) : (ts : Tys) → (i : Nat) → Local (readNth E ts i)
  | .nil, _ => by rw [readNth]; exact local_fail _
  | .cons t _, 0 => by rw [readNth]; exact local_read E t
  | .cons _ rest, i + 1 => by rw [readNth]; exact local_readNth E rest i

end

theorem local_readDefault (E : Env) (t : Ty) : Local (readDefault E t) :=
  local_bind (local_readUnsigned 1) fun _ => local_ite
    (local_bind (local_read E t) fun _ => local_pure _) (local_pure _)

theorem local_readItem (E : Env) (t : Ty) : Local (readItem E t) :=
  local_bind (local_read E t) fun v => local_bind (local_readString E) fun _ =>
    local_bind (local_valInt v) fun _ => local_pure _

theorem local_makeObject (E : Env) (f : Nat) (fs : Fields) : Local (makeObject E f fs) :=
  local_ite (local_pure _) (local_fail _)

theorem local_makeEnum (E : Env) (t : Ty) (items : List (Bytes × Int)) :
    Local (makeEnum E t items) := local_ite (local_pure _) (local_fail _)

theorem local_parse (E : Env) (fuel : Nat) : Local (parseType E fuel) ∧
    Local (parseFields E fuel) ∧ Local (parseUnion E fuel) := by
  induction fuel with
  | zero => exact ⟨local_fail _, local_fail _, local_fail _⟩
  | succ fuel ih =>
    obtain ⟨h1, h2, h3⟩ := ih
    refine ⟨?_, ?_, ?_⟩
    · refine local_bind local_varuint fun n => ?_
      split
      all_goals first
        | exact local_pure _
        | exact local_bind (local_readUnsigned 1) fun _ => local_ite (local_pure _) (local_fail _)
        | exact local_bind local_varuint fun _ => local_bind h2 fun _ => local_makeObject _ _ _
        | exact local_bind h1 fun t => local_bind local_varuint fun n =>
            local_bind (local_times (local_readItem E t) n) fun _ => local_makeEnum _ _ _
        | exact local_bind h1 fun _ => local_pure _
        | exact local_bind local_varuint fun _ => local_bind h1 fun _ => local_pure _
        | exact local_bind h3 fun _ => local_pure _
        | exact local_ite (local_fail _) (local_fail _)
    · exact local_bind local_varuint fun _ => local_bind (local_readString E) fun _ =>
        local_bind local_varuint fun n => local_bind (local_times (local_readString E) n) fun _ =>
        local_bind h1 fun t => local_bind (local_readDefault E t) fun _ =>
        local_ite (local_pure _) (local_bind h2 fun _ => local_pure _)
    · exact local_bind h1 fun _ => local_ite (local_pure _) (local_bind h3 fun _ => local_pure _)

/-! ## The fuel is enough -/

theorem Local.shrinks {p : P α} (h : Local p) {bs : Bytes} {a : α} {rest : Bytes}
    (e : p bs = .ok (a, rest)) : rest.length ≤ bs.length := by
  obtain ⟨u, hu, _⟩ := h _ _ _ e
  rw [hu, List.length_append]; omega

/-- Both readers agree on inputs of at most `n` bytes and do not run out of
fuel. -/
def Agree (n : Nat) (p q : P α) : Prop :=
  ∀ bs : Bytes, bs.length ≤ n → p bs = q bs ∧ p bs ≠ .error .fuel

theorem agree_refl_pure (n : Nat) (a : α) : Agree n (P.pure a) (P.pure a) :=
  fun _ _ => ⟨rfl, fun h => by cases h⟩

theorem agree_fail (n : Nat) (e : Err) (h : e ≠ .fuel) : Agree n (P.fail e : P α) (P.fail e) :=
  fun _ _ => ⟨rfl, fun h' => by injection h' with h'; exact h h'⟩

theorem agree_bind {n : Nat} {p q : P α} {f g : α → P β} (hp : Local p) (h : Agree n p q)
    (hf : ∀ a, Agree n (f a) (g a)) : Agree n (p.bind f) (q.bind g) := by
  intro bs hl
  obtain ⟨h1, h2⟩ := h bs hl
  unfold P.bind
  rw [← h1]
  cases hb : p bs with
  | error e => exact ⟨rfl, fun h => h2 (by rw [hb]; injection h with h; rw [h])⟩
  | ok r =>
    obtain ⟨a, rest⟩ := r
    exact hf a rest (le_trans (hp.shrinks hb) hl)

/-- After a reader that consumes something, agreement on shorter inputs is
enough. -/
theorem agree_bind_strict {n : Nat} {p q : P α} {f g : α → P β}
    (hp : ∀ bs a rest, p bs = .ok (a, rest) → rest.length < bs.length) (h : Agree n p q)
    (hf : ∀ a, ∀ m < n, Agree m (f a) (g a)) : Agree n (p.bind f) (q.bind g) := by
  intro bs hl
  obtain ⟨h1, h2⟩ := h bs hl
  unfold P.bind
  rw [← h1]
  cases hb : p bs with
  | error e => exact ⟨rfl, fun h => h2 (by rw [hb]; injection h with h; rw [h])⟩
  | ok r =>
    obtain ⟨a, rest⟩ := r
    exact hf a rest.length (lt_of_lt_of_le (hp _ _ _ hb) hl) rest le_rfl

theorem agree_ite {n : Nat} {c : Prop} [Decidable c] {p q p' q' : P α} (h : Agree n p p')
    (h' : Agree n q q') : Agree n (if c then p else q) (if c then p' else q') := by
  split
  · exact h
  · exact h'

/-- A reader that never runs out of fuel. -/
def Fuelless (p : P α) : Prop := ∀ bs, p bs ≠ .error .fuel

theorem Fuelless.agree {p : P α} (h : Fuelless p) (n : Nat) : Agree n p p := fun bs _ => ⟨rfl, h bs⟩

theorem fuelless_pure (a : α) : Fuelless (P.pure a) := fun _ h => by cases h

theorem fuelless_fail {e : Err} (he : e ≠ .fuel) : Fuelless (P.fail e : P α) :=
  fun _ h => by injection h with h; exact he h

theorem fuelless_bind {p : P α} {f : α → P β} (hp : Fuelless p) (hf : ∀ a, Fuelless (f a)) :
    Fuelless (p.bind f) := by
  intro bs h
  unfold P.bind at h
  cases hb : p bs with
  | error e => rw [hb] at h; exact hp bs (by rw [hb]; injection h with h; rw [h])
  | ok r => rw [hb] at h; exact hf _ _ h

theorem fuelless_times {p : P α} (hp : Fuelless p) (n : Nat) : Fuelless (p.times n) := by
  induction n with
  | zero => exact fuelless_pure _
  | succ n ih => exact fuelless_bind hp fun _ => fuelless_bind ih fun _ => fuelless_pure _

theorem fuelless_ite {c : Prop} [Decidable c] {p q : P α} (hp : Fuelless p) (hq : Fuelless q) :
    Fuelless (if c then p else q) := by
  split
  · exact hp
  · exact hq

theorem fuelless_varuint : Fuelless readVaruint := by
  have : ∀ (bs : Bytes) r fk, varuintLoop r fk bs ≠ .error .fuel := by
    intro bs
    induction bs with
    | nil => intro r fk h; cases h
    | cons b bs ih =>
      intro r fk h
      simp only [varuintLoop] at h
      split at h
      · cases h
      · split at h
        · cases h
        · exact ih _ _ h
  exact fun bs => this bs 0 1

theorem fuelless_readBytes : Fuelless readBytes :=
  fuelless_bind fuelless_varuint fun _ _ h => by cases h

theorem fuelless_readString (E : Env) : Fuelless (readString E) :=
  fuelless_bind fuelless_readBytes fun _ =>
    fuelless_ite (fuelless_pure _) (fuelless_fail (by decide))

theorem fuelless_readUnsigned (n : Nat) : Fuelless (readUnsigned n) :=
  fuelless_bind (fun _ h => by cases h) fun _ =>
    fuelless_ite (fuelless_pure _) (fuelless_fail (by decide))

theorem fuelless_readSigned (n : Nat) : Fuelless (readSigned n) :=
  fuelless_bind (fuelless_readUnsigned n) fun _ => fuelless_pure _

theorem fuelless_valInt (v : Val) : Fuelless (valInt v) := by
  cases v <;> first | exact fuelless_pure _ | exact fuelless_fail (by decide)

mutual

theorem fuelless_read (E : Env) : (t : Ty) → Fuelless (read E t)
  | .final => fuelless_fail (by decide)
  | .null => fuelless_pure _
  | .bool => fuelless_bind (fuelless_readUnsigned 1) fun _ => fuelless_pure _
  | .int n => fuelless_bind (fuelless_readSigned n) fun _ => fuelless_pure _
  | .uint n => fuelless_bind (fuelless_readUnsigned n) fun _ => fuelless_pure _
  | .varint => fuelless_fail (by decide)
  | .varuint => fuelless_bind fuelless_varuint fun _ => fuelless_pure _
  | .f32 => fuelless_bind (fuelless_readUnsigned 4) fun _ => fuelless_pure _
  | .f64 => fuelless_bind (fuelless_readUnsigned 8) fun _ => fuelless_pure _
  | .bytes => fuelless_bind fuelless_readBytes fun _ => fuelless_pure _
  | .string => fuelless_bind (fuelless_readString E) fun _ => fuelless_pure _
  | .object _ fields => fuelless_bind (fuelless_readFields E fields) fun _ => fuelless_pure _
  | .enum base _ => fuelless_bind (fuelless_read E base) fun v =>
      fuelless_bind (fuelless_valInt v) fun _ => fuelless_pure _
  | .array t => fuelless_bind fuelless_varuint fun n =>
      fuelless_bind (fuelless_times (fuelless_read E t) n) fun _ => fuelless_pure _
  | .fixedArray n t => fuelless_bind (fuelless_times (fuelless_read E t) n) fun _ => fuelless_pure _
  | .map t => fuelless_bind fuelless_varuint fun n => fuelless_bind (fuelless_times
      (fuelless_bind (fuelless_readString E) fun _ =>
        fuelless_bind (fuelless_read E t) fun _ => fuelless_pure _) n) fun _ => fuelless_pure _
  | .union ts => fuelless_bind fuelless_varuint fun i => fuelless_readNth E ts i
  | .timestamp => fuelless_bind (fuelless_readSigned 8) fun _ => fuelless_pure _
  | .duration => fuelless_bind (fuelless_readSigned 8) fun _ => fuelless_pure _

theorem fuelless_readFields (E : Env) : (fs : Fields) → Fuelless (readFields E fs)
  | .nil => fuelless_pure _
  | .cons _ _ _ t _ rest => fuelless_bind (fuelless_read E t) fun _ =>
      fuelless_bind (fuelless_readFields E rest) fun _ => fuelless_pure _

theorem fuelless_readNth (E : Env) : (ts : Tys) → (i : Nat) → Fuelless (readNth E ts i)
  | .nil, _ => by rw [readNth]; exact fuelless_fail (by decide)
  | .cons t _, 0 => by rw [readNth]; exact fuelless_read E t
  | .cons _ rest, i + 1 => by rw [readNth]; exact fuelless_readNth E rest i

end

theorem fuelless_readDefault (E : Env) (t : Ty) : Fuelless (readDefault E t) :=
  fuelless_bind (fuelless_readUnsigned 1) fun _ => fuelless_ite
    (fuelless_bind (fuelless_read E t) fun _ => fuelless_pure _) (fuelless_pure _)

theorem fuelless_readItem (E : Env) (t : Ty) : Fuelless (readItem E t) :=
  fuelless_bind (fuelless_read E t) fun v => fuelless_bind (fuelless_readString E) fun _ =>
    fuelless_bind (fuelless_valInt v) fun _ => fuelless_pure _

theorem parse_strict (E : Env) (fuel : Nat) (bs : Bytes) (t : Ty) (rest : Bytes)
    (h : parseType E fuel bs = .ok (t, rest)) : rest.length < bs.length := by
  cases fuel with
  | zero => cases h
  | succ fuel =>
    obtain ⟨n, mid, h1, h2⟩ := bind_ok_iff.mp h
    have hl := varuint_strict h1
    refine lt_of_le_of_lt ?_ hl
    obtain ⟨g1, g2, g3⟩ := local_parse E fuel
    split at h2
    all_goals first
      | exact (local_pure _).shrinks h2
      | exact (local_bind (local_readUnsigned 1) fun _ =>
          local_ite (local_pure _) (local_fail _)).shrinks h2
      | exact (local_bind local_varuint fun _ => local_bind g2 fun _ =>
          local_makeObject _ _ _).shrinks h2
      | exact (local_bind g1 fun t => local_bind local_varuint fun n =>
          local_bind (local_times (local_readItem E t) n) fun _ => local_makeEnum _ _ _).shrinks h2
      | exact (local_bind g1 fun _ => local_pure _).shrinks h2
      | exact (local_bind local_varuint fun _ => local_bind g1 fun _ => local_pure _).shrinks h2
      | exact (local_bind g3 fun _ => local_pure _).shrinks h2
      | exact (local_ite (local_fail _) (local_fail _)).shrinks h2

theorem agree_parse (E : Env) (f f' : Nat) : ∀ n,
    (2 * n + 1 ≤ f → 2 * n + 1 ≤ f' → Agree n (parseType E f) (parseType E f')) ∧
    (2 * n + 1 ≤ f → 2 * n + 1 ≤ f' → Agree n (parseFields E f) (parseFields E f')) ∧
    (2 * n + 2 ≤ f → 2 * n + 2 ≤ f' → Agree n (parseUnion E f) (parseUnion E f')) := by
  induction f generalizing f' with
  | zero => intro n; refine ⟨?_, ?_, ?_⟩ <;> (intro h; omega)
  | succ f ih =>
    intro n
    cases f' with
    | zero => refine ⟨?_, ?_, ?_⟩ <;> (intro _ h; omega)
    | succ f' =>
      obtain ⟨l1, l2, l3⟩ := local_parse E f
      have vs : ∀ bs a rest, readVaruint bs = .ok (a, rest) → rest.length < bs.length :=
        fun _ _ _ h => varuint_strict h
      refine ⟨?_, ?_, ?_⟩
      · intro h h'
        refine agree_bind_strict vs (fuelless_varuint.agree n) fun i m hm => ?_
        obtain ⟨a1, a2, a3⟩ := ih f' m
        have a1 := a1 (by omega) (by omega)
        have a2 := a2 (by omega) (by omega)
        have a3 := a3 (by omega) (by omega)
        split
        all_goals first
          | exact agree_refl_pure _ _
          | exact (fuelless_bind (fuelless_readUnsigned 1) fun _ =>
              fuelless_ite (fuelless_pure _) (fuelless_fail (by decide))).agree _
          | exact agree_bind local_varuint (fuelless_varuint.agree _) fun _ =>
              agree_bind l2 a2 fun _ =>
                (fuelless_ite (fuelless_pure _) (fuelless_fail (by decide))).agree _
          | exact agree_bind l1 a1 fun t => (fuelless_bind fuelless_varuint fun n =>
              fuelless_bind (fuelless_times (fuelless_readItem E t) n) fun _ =>
                fuelless_ite (fuelless_pure _) (fuelless_fail (by decide))).agree _
          | exact agree_bind l1 a1 fun _ => agree_refl_pure _ _
          | exact agree_bind local_varuint (fuelless_varuint.agree _) fun _ =>
              agree_bind l1 a1 fun _ => agree_refl_pure _ _
          | exact agree_bind l3 a3 fun _ => agree_refl_pure _ _
          | exact agree_ite (agree_fail _ _ (by decide)) (agree_fail _ _ (by decide))
      · intro h h'
        refine agree_bind_strict vs (fuelless_varuint.agree n) fun i m hm => ?_
        obtain ⟨a1, a2, a3⟩ := ih f' m
        have a1 := a1 (by omega) (by omega)
        have a2 := a2 (by omega) (by omega)
        exact agree_bind (local_readString E) ((fuelless_readString E).agree _) fun _ =>
          agree_bind local_varuint (fuelless_varuint.agree _) fun k =>
          agree_bind (local_times (local_readString E) k)
            ((fuelless_times (fuelless_readString E) k).agree _) fun _ =>
          agree_bind l1 a1 fun t =>
          agree_bind (local_readDefault E t) ((fuelless_readDefault E t).agree _) fun _ =>
          agree_ite (agree_refl_pure _ _) (agree_bind l2 a2 fun _ => agree_refl_pure _ _)
      · intro h h'
        refine agree_bind_strict (fun _ _ _ h => parse_strict E f _ _ _ h)
          ((ih f' n).1 (by omega) (by omega)) fun t m hm => ?_
        exact agree_ite (agree_refl_pure _ _) (agree_bind l3
          ((ih f' m).2.2 (by omega) (by omega)) fun _ => agree_refl_pure _ _)

/-- Any larger bound on the depth of calls gives the same result. -/
theorem fromBinary_eq (E : Env) (bs : Bytes) (fuel : Nat) (h : 2 * bs.length + 1 ≤ fuel) :
    fromBinary E bs = parseType E fuel bs ∧ fromBinary E bs ≠ .error .fuel :=
  (agree_parse E _ fuel bs.length).1 le_rfl h bs le_rfl

/-- C29: for every byte string the parser terminates without bound on the
depth of calls: it raises, or returns a schema and has consumed a non-empty
prefix.  The bound in the model is never reached and any larger bound gives
the same result. -/
theorem C29_total (E : Env) (bs : Bytes) :
    (∃ e, e ≠ .fuel ∧ ∀ fuel, 2 * bs.length + 1 ≤ fuel → parseType E fuel bs = .error e) ∨
    (∃ t used rest, bs = used ++ rest ∧ used ≠ [] ∧
      ∀ fuel, 2 * bs.length + 1 ≤ fuel → parseType E fuel bs = .ok (t, rest)) := by
  cases h : fromBinary E bs with
  | error e =>
    left
    refine ⟨e, fun he => ?_, fun fuel hf => ?_⟩
    · exact (fromBinary_eq E bs _ le_rfl).2 (by rw [h, he])
    · rw [← (fromBinary_eq E bs fuel hf).1, h]
  | ok r =>
    right
    obtain ⟨t, rest⟩ := r
    obtain ⟨used, hu, _⟩ := (local_parse E _).1 _ _ _ h
    refine ⟨t, used, rest, hu, ?_, fun fuel hf => ?_⟩
    · intro he
      have := parse_strict E _ _ _ _ h
      rw [hu, he] at this
      simp at this
    · rw [← (fromBinary_eq E bs fuel hf).1, h]

/-- C29: a schema that does not end with the input depends on the consumed
bytes only. -/
theorem C29_prefix_partial (E : Env) (used rest : Bytes) (t : Ty) (hr : rest ≠ [])
    (h : fromBinary E (used ++ rest) = .ok (t, rest)) (rest' : Bytes) :
    fromBinary E (used ++ rest') = .ok (t, rest') := by
  let N := 2 * (used ++ rest).length + 2 * (used ++ rest').length + 1
  rw [(fromBinary_eq E _ N (by simp only [N]; omega)).1] at h
  rw [(fromBinary_eq E _ N (by simp only [N]; omega)).1]
  obtain ⟨u, hu, hg⟩ := (local_parse E N).1 _ _ _ h
  have : u = used := (List.append_cancel_right hu).symm
  rw [← this]
  exact hg hr rest'

/-- C29: the same for values. -/
theorem C29_value_prefix_partial (E : Env) (t : Ty) (bs : Bytes) (v : Val) (rest : Bytes)
    (h : read E t bs = .ok (v, rest)) : ∃ used, bs = used ++ rest ∧
      (rest ≠ [] → ∀ rest', read E t (used ++ rest') = .ok (v, rest')) :=
  local_read E t bs v rest h

/-- Everything is accepted as a name. -/
def anyEnv : Env := { utf8 := fun _ => true, fieldName := fun _ => true, enumNames := fun _ => true }

/-- C29 is violated at the end of the input: a string shorter than announced
is accepted there, and more bytes change the result.  The schema is a map; the
value has one entry whose key should have three bytes. -/
theorem C29_short_string_refuted :
    read anyEnv (.map .null) [1, 3, 65] = .ok (.dict [([65], .none)], []) ∧
    read anyEnv (.map .null) ([1, 3, 65] ++ [66, 67, 68]) =
      .ok (.dict [([65, 66, 67], .none)], [68]) ∧
    (∃ t, fromBinary anyEnv [17, 6, 1, 7, 3, 65] = .ok (t, []) ∧
      fromBinary anyEnv ([17, 6, 1, 7, 3, 65] ++ [66]) ≠ .ok (t, [66])) := by
  refine ⟨rfl, rfl, .enum .varuint [([65], 7)], rfl, ?_⟩
  intro h
  have h2 : fromBinary anyEnv ([17, 6, 1, 7, 3, 65] ++ [66]) =
    .ok (.enum .varuint [([65, 66], 7)], []) := rfl
  rw [h2] at h
  simp at h

/-- A schema with something after it. -/
example : fromBinary anyEnv [18, 3, 4, 99] = .ok (.array (.int 4), [99]) := rfl
example : fromBinary anyEnv [18, 3, 3, 99] = .error .parse := rfl
example : fromBinary anyEnv [12] = .error .notCallable := rfl
example : fromBinary anyEnv [24] = .error .unknownType := rfl

end Verif.Telemetry
