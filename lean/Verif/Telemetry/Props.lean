import Verif.Telemetry.Total
import Mathlib.Tactic.Ring

/-!
# C28: decoding inverts encoding

The encoding is specified by two relations, `Spec.Enc` for values and
`Spec.Schema` for schemas, that do not mention the reader.
-/

namespace Verif.Telemetry

open Verif Verif.Float

namespace Spec

/-- A varuint: 7 bits per byte, least significant first, the top bit is set on
all but the last byte. -/
def leb (n : Nat) : Bytes :=
  if n < 128 then [UInt8.ofNat n] else UInt8.ofNat (128 + n % 128) :: leb (n / 128)
termination_by n
decreasing_by omega

/-- `size` bytes, least significant first. -/
def le : Nat → Nat → Bytes
  | 0, _ => []
  | size + 1, n => UInt8.ofNat (n % 256) :: le size (n / 256)

/-- A string: its size and its bytes. -/
def str (b : Bytes) : Bytes := leb b.length ++ b

/-- Texts that can be announced. -/
def Text (E : Env) (b : Bytes) : Prop := E.utf8 b = true ∧ b.length < 2 ^ 64

/-- The encodings of a sequence of things, one after the other. -/
def All {α : Type} (R : α → Bytes → Prop) : List α → Bytes → Prop
  | [], bs => bs = []
  | v :: vs, bs => ∃ b1 b2, bs = b1 ++ b2 ∧ R v b1 ∧ All R vs b2

/-- The name of a value of an enumeration: the first name that is declared for
it, else the number. -/
def EnumName (items : List (Bytes × Int)) (i : Int) (name : Bytes) : Prop :=
  (∃ pre post, items = pre ++ (name, i) :: post ∧ ∀ e ∈ pre, e.2 ≠ i) ∨
  ((∀ e ∈ items, e.2 ≠ i) ∧ name = decimalInt i)

/-- `us` microseconds as a 64 bit signed number; the value in seconds. -/
def Time (v : Val) (bs : Bytes) : Prop :=
  ∃ us : Int, -2 ^ 63 ≤ us ∧ us < 2 ^ 63 ∧ bs = le 8 (us % 2 ^ 64).toNat ∧
    v = .seconds (b64.roundQ (b64.roundQ us / 1000000))

mutual

/-- `bs` is the binary form of the value `v` of type `t`. -/
def Enc (E : Env) : Ty → Val → Bytes → Prop
  | .final, _, _ => False
  | .null, v, bs => v = .none ∧ bs = []
  | .bool, v, bs => ∃ b : Bool, v = .bool b ∧ bs = [if b then 1 else 0]
  | .int size, v, bs => ∃ i : Int, v = .int i ∧ 0 < size ∧ -2 ^ (8 * size - 1) ≤ i ∧
      i < 2 ^ (8 * size - 1) ∧ bs = le size (i % 2 ^ (8 * size)).toNat
  | .uint size, v, bs => ∃ n : Nat, v = .int n ∧ n < 2 ^ (8 * size) ∧ bs = le size n
  | .varint, _, _ => False
  | .varuint, v, bs => ∃ n : Nat, v = .int n ∧ n < 2 ^ 64 ∧ bs = leb n
  | .f32, v, bs => ∃ n : Nat, v = .f32 n ∧ n < 2 ^ 32 ∧ bs = le 4 n
  | .f64, v, bs => ∃ n : Nat, v = .f64 n ∧ n < 2 ^ 64 ∧ bs = le 8 n
  | .bytes, v, bs => ∃ b : Bytes, v = .bytes b ∧ b.length < 2 ^ 64 ∧ bs = str b
  | .string, v, bs => ∃ b : Bytes, v = .str b ∧ Text E b ∧ bs = str b
  | .object _ fields, v, bs => ∃ l, v = .tuple l ∧ EncFields E fields l bs
  | .enum base items, v, bs => ∃ i name, v = .enum i name ∧ EnumName items i name ∧
      Enc E base (.int i) bs
  | .array t, v, bs => ∃ l b, v = .list l ∧ l.length < 2 ^ 64 ∧ bs = leb l.length ++ b ∧
      All (Enc E t) l b
  | .fixedArray n t, v, bs => ∃ l, v = .list l ∧ l.length = n ∧ All (Enc E t) l bs
  | .map t, v, bs => ∃ l b, v = .dict l ∧ l.length < 2 ^ 64 ∧ (l.map Prod.fst).Nodup ∧
      bs = leb l.length ++ b ∧
      All (fun e b => ∃ b2, b = str e.1 ++ b2 ∧ Text E e.1 ∧ Enc E t e.2 b2) l b
  | .union ts, v, bs => ∃ i b, i < 2 ^ 64 ∧ bs = leb i ++ b ∧ EncNth E ts i v b
  | .timestamp, v, bs => Time v bs
  | .duration, v, bs => Time v bs

/-- The fields of an object, in the order of the schema. -/
def EncFields (E : Env) : Fields → List (Bytes × Val) → Bytes → Prop
  | .nil, l, bs => l = [] ∧ bs = []
  | .cons _ name _ t _ rest, l, bs => ∃ v l' b1 b2, l = (escape name, v) :: l' ∧ bs = b1 ++ b2 ∧
      Enc E t v b1 ∧ EncFields E rest l' b2

/-- A value of the `i`-th alternative of a union. -/
def EncNth (E : Env) : Tys → Nat → Val → Bytes → Prop
  | .nil, _, _, _ => False
  | .cons t _, 0, v, bs => Enc E t v bs
  | .cons _ rest, i + 1, v, bs => EncNth E rest i v bs

end

/-- The head of a field: flags, name and aliases. -/
def Head (E : Env) (flags : Nat) (name : Bytes) (aliases : List Bytes) (bs : Bytes) : Prop :=
  flags < 2 ^ 64 ∧ Text E name ∧ aliases.length < 2 ^ 64 ∧ (∀ a ∈ aliases, Text E a) ∧
  bs = leb flags ++ str name ++ leb aliases.length ++ (aliases.map str).flatten

/-- The default of a field: absent, or a value. -/
def Default (E : Env) (t : Ty) : Option Val → Bytes → Prop
  | none, bs => bs = [0]
  | some v, bs => ∃ b, bs = 1 :: b ∧ Enc E t v b

mutual

/-- `bs` announces the type `t`. -/
def Schema (E : Env) : Ty → Bytes → Prop
  | .final, _ => False
  | .null, bs => bs = [1]
  | .bool, bs => bs = [2]
  | .int size, bs => size ∈ [1, 2, 4, 8] ∧ bs = [3, UInt8.ofNat size]
  | .uint size, bs => size ∈ [1, 2, 4, 8] ∧ bs = [4, UInt8.ofNat size]
  | .varint, bs => bs = [5]
  | .varuint, bs => bs = [6]
  | .f32, bs => bs = [7]
  | .f64, bs => bs = [8]
  | .bytes, bs => bs = [9]
  | .string, bs => bs = [10]
  | .object flags fields, bs => (∀ n ∈ fields.names, E.fieldName n = true) ∧ fields.names.Nodup ∧
      ∃ objectFlags b, objectFlags < 2 ^ 64 ∧ bs = 16 :: leb objectFlags ++ b ∧
        SchemaFields E fields flags b
  | .enum base items, bs => items ≠ [] ∧ items.length < 2 ^ 64 ∧ (items.map Prod.fst).Nodup ∧
      E.enumNames (items.map Prod.fst) = true ∧
      ∃ b1 b2, bs = 17 :: b1 ++ leb items.length ++ b2 ∧ Schema E base b1 ∧
        All (fun e b => ∃ b', b = b' ++ str e.1 ∧ Text E e.1 ∧ Enc E base (.int e.2) b') items b2
  | .array t, bs => ∃ b, bs = 18 :: b ∧ Schema E t b
  | .fixedArray n t, bs => ∃ b, n < 2 ^ 64 ∧ bs = 19 :: leb n ++ b ∧ Schema E t b
  | .map t, bs => ∃ b, bs = 20 :: b ∧ Schema E t b
  | .union ts, bs => ∃ b, bs = 21 :: b ∧ SchemaTys E ts b
  | .timestamp, bs => bs = [22]
  | .duration, bs => bs = [23]

/-- The fields of an object and the terminating field, which has the flags
`last`. -/
def SchemaFields (E : Env) : Fields → Nat → Bytes → Prop
  | .nil, last, bs => ∃ name aliases head, Head E last name aliases head ∧ bs = head ++ [0, 0]
  | .cons flags name aliases t d rest, last, bs => ∃ head b1 b2 b3, Head E flags name aliases head ∧
      bs = head ++ b1 ++ b2 ++ b3 ∧ Schema E t b1 ∧ Default E t d b2 ∧ SchemaFields E rest last b3

/-- The alternatives of a union and the terminating type. -/
def SchemaTys (E : Env) : Tys → Bytes → Prop
  | .nil, bs => bs = [0]
  | .cons t rest, bs => ∃ b1 b2, bs = b1 ++ b2 ∧ Schema E t b1 ∧ SchemaTys E rest b2

end

end Spec

open Spec

/-! ## Readers on an encoding -/

/-- `p` turns `bs` into `a`, whatever follows. -/
def Reads {α : Type} (p : P α) (bs : Bytes) (a : α) : Prop :=
  ∀ rest, p (bs ++ rest) = .ok (a, rest)

variable {α β : Type}

theorem reads_pure (a : α) : Reads (P.pure a) [] a := fun _ => rfl

theorem reads_bind {p : P α} {f : α → P β} {b1 b2 : Bytes} {a : α} {c : β} (h1 : Reads p b1 a)
    (h2 : Reads (f a) b2 c) : Reads (p.bind f) (b1 ++ b2) c := by
  intro rest
  rw [List.append_assoc]
  exact bind_ok_iff.mpr ⟨a, _, h1 _, h2 _⟩

/-- The last step of a reader. -/
theorem reads_map {p : P α} {f : α → β} {bs : Bytes} {a : α} (h : Reads p bs a) :
    Reads (p.bind fun a => .pure (f a)) bs (f a) := by
  have := reads_bind (f := fun a => .pure (f a)) h (reads_pure (f a))
  rwa [List.append_nil] at this

theorem reads_all {p : P α} {R : α → Bytes → Prop} (h : ∀ v b, R v b → Reads p b v) :
    ∀ (l : List α) (bs : Bytes), All R l bs → Reads (p.times l.length) bs l
  | [], _, hb => by rw [All] at hb; rw [hb]; exact reads_pure []
  | v :: vs, bs, hb => by
    rw [All] at hb
    obtain ⟨b1, b2, rfl, h1, h2⟩ := hb
    exact reads_bind (h v b1 h1) (reads_map (reads_all h vs b2 h2))

theorem reads_leb_loop (n r fk : Nat) (hfk : 0 < fk) (h : r + fk * n < 2 ^ 64) :
    Reads (varuintLoop r fk) (leb n) (r + fk * n) := by
  induction n using Nat.strongRecOn generalizing r fk with
  | _ n ih =>
    intro rest
    rw [leb]
    split
    · next hn =>
      have e : (UInt8.ofNat n).toNat = n := by rw [UInt8.toNat_ofNat']; omega
      simp only [List.cons_append, List.nil_append, varuintLoop, e]
      rw [if_pos (by omega), Nat.mod_eq_of_lt hn]
    · next hn =>
      have e : (UInt8.ofNat (128 + n % 128)).toNat = 128 + n % 128 := by
        rw [UInt8.toNat_ofNat']; omega
      have hm : (128 + n % 128) % 128 = n % 128 := by omega
      have hsum : r + fk * (n % 128) + fk * 128 * (n / 128) = r + fk * n := by
        have := Nat.mod_add_div n 128
        calc r + fk * (n % 128) + fk * 128 * (n / 128) = r + fk * (n % 128 + 128 * (n / 128)) := by ring
          _ = _ := by rw [this]
      simp only [List.cons_append, varuintLoop, e, hm]
      have hle : fk * (n % 128) ≤ fk * n := Nat.mul_le_mul_left _ (Nat.mod_le _ _)
      rw [if_neg (by omega), if_neg (by omega)]
      have := ih (n / 128) (by omega) (r + fk * (n % 128)) (fk * 128) (by omega) (by omega) rest
      rw [this, hsum]

theorem reads_leb {n : Nat} (h : n < 2 ^ 64) : Reads readVaruint (leb n) n := by
  have := reads_leb_loop n 0 1 (by omega) (by omega)
  rwa [Nat.zero_add, Nat.one_mul] at this

theorem reads_upTo (b : Bytes) : Reads (readUpTo b.length) b b := by
  intro rest
  simp [readUpTo]

theorem reads_bytes {b : Bytes} (h : b.length < 2 ^ 64) : Reads readBytes (str b) b :=
  reads_bind (reads_leb h) (reads_upTo b)

theorem reads_string {E : Env} {b : Bytes} (h : Text E b) : Reads (readString E) (str b) b := by
  have : Reads (readString E) (str b ++ []) b := by
    refine reads_bind (reads_bytes h.2) ?_
    simp only [h.1, if_true]
    exact reads_pure b
  rwa [List.append_nil] at this

theorem le_length (size n : Nat) : (le size n).length = size := by
  induction size generalizing n with
  | zero => rfl
  | succ size ih => simp [le, ih]

theorem leValue_le (size n : Nat) (h : n < 2 ^ (8 * size)) : leValue (le size n) = n := by
  induction size generalizing n with
  | zero =>
    simp only [Nat.mul_zero, pow_zero] at h
    simp only [le, leValue]; omega
  | succ size ih =>
    have h1 : n / 256 < 2 ^ (8 * size) := by
      rw [Nat.div_lt_iff_lt_mul (by omega)]
      calc n < 2 ^ (8 * (size + 1)) := h
        _ = 2 ^ (8 * size) * 256 := by rw [Nat.mul_add, pow_add]; norm_num
    simp only [le, leValue, ih _ h1, UInt8.toNat_ofNat']
    omega

theorem reads_unsigned {size n : Nat} (h : n < 2 ^ (8 * size)) :
    Reads (readUnsigned size) (le size n) n := by
  have h1 : Reads (readUpTo size) (le size n) (le size n) := by
    have := reads_upTo (le size n)
    rwa [le_length] at this
  have : Reads (readUnsigned size) (le size n ++ []) n := by
    refine reads_bind h1 ?_
    rw [if_pos (le_length size n), leValue_le size n h]
    exact reads_pure n
  rwa [List.append_nil] at this

theorem reads_signed {size : Nat} {i : Int} (hs : 0 < size) (h1 : -2 ^ (8 * size - 1) ≤ i)
    (h2 : i < 2 ^ (8 * size - 1)) :
    Reads (readSigned size) (le size (i % 2 ^ (8 * size)).toNat) i := by
  have hp : (2 : Int) ^ (8 * size) = 2 * 2 ^ (8 * size - 1) := by
    rw [← pow_succ']; congr 1; omega
  have hpos : (0 : Int) < 2 ^ (8 * size - 1) := by positivity
  have hr := Int.emod_nonneg i (b := 2 ^ (8 * size)) (by positivity)
  have hlt := Int.emod_lt_of_pos i (b := 2 ^ (8 * size)) (by positivity)
  have e : signed size (i % 2 ^ (8 * size)).toNat = i := by
    unfold signed
    by_cases hi : 0 ≤ i
    · have he : i % 2 ^ (8 * size) = i := Int.emod_eq_of_lt hi (by linarith)
      rw [he, if_pos]
      · omega
      · have : ((2 ^ (8 * size - 1) : Nat) : Int) = 2 ^ (8 * size - 1) := by push_cast; rfl
        omega
    · have he : i % 2 ^ (8 * size) = i + 2 ^ (8 * size) := by
        rw [← Int.add_mul_emod_self_left i (2 ^ (8 * size)) 1, mul_one]
        exact Int.emod_eq_of_lt (by linarith) (by linarith)
      have hn : ((i + 2 ^ (8 * size)).toNat : Int) = i + 2 ^ (8 * size) :=
        Int.toNat_of_nonneg (by linarith)
      rw [he, if_neg]
      · rw [hn]; ring
      · intro hc
        have : ((i + 2 ^ (8 * size)).toNat : Int) < 2 ^ (8 * size - 1) := by exact_mod_cast hc
        linarith
  have hb : (i % 2 ^ (8 * size)).toNat < 2 ^ (8 * size) := by
    have : ((i % 2 ^ (8 * size)).toNat : Int) < ((2 ^ (8 * size) : Nat) : Int) := by
      rw [Int.toNat_of_nonneg hr]; push_cast; exact hlt
    exact_mod_cast this
  have := reads_map (f := signed size) (reads_unsigned hb)
  rwa [e] at this

theorem reads_time {v : Val} {bs : Bytes} (h : Time v bs) :
    Reads ((readSigned 8).bind fun i => .pure (.seconds (seconds i))) bs v := by
  obtain ⟨us, h1, h2, rfl, rfl⟩ := h
  exact reads_map (reads_signed (size := 8) (by omega) h1 h2)

theorem enumMember_name {items : List (Bytes × Int)} {i : Int} {name : Bytes}
    (h : EnumName items i name) : enumMember items i = .enum i name := by
  unfold enumMember
  rcases h with ⟨pre, post, rfl, hp⟩ | ⟨h, rfl⟩
  · have : (pre ++ (name, i) :: post).find? (fun e => decide (e.2 = i)) = some (name, i) := by
      rw [List.find?_append, List.find?_eq_none.mpr (by simpa using hp)]
      simp
    rw [this]
  · rw [List.find?_eq_none.mpr (by simpa using h)]

theorem dictSet_new (d : List (Bytes × α)) (k : Bytes) (v : α) (h : k ∉ d.map Prod.fst) :
    dictSet d k v = d ++ [(k, v)] := by
  induction d with
  | nil => rfl
  | cons e d ih =>
    obtain ⟨k', v'⟩ := e
    simp only [List.map_cons, List.mem_cons, not_or] at h
    simp only [dictSet, if_neg (Ne.symm h.1), ih h.2, List.cons_append]

theorem dictOf_nodup (l : List (Bytes × α)) (h : (l.map Prod.fst).Nodup) : dictOf l = l := by
  have : ∀ (l d : List (Bytes × α)), ((d ++ l).map Prod.fst).Nodup →
      l.foldl (fun d e => dictSet d e.1 e.2) d = d ++ l := by
    intro l
    induction l with
    | nil => intro d _; simp
    | cons e l ih =>
      intro d hd
      have hn : e.1 ∉ d.map Prod.fst := by
        rw [List.map_append, List.nodup_append] at hd
        intro hm
        exact hd.2.2 _ hm e.1 (by simp) rfl
      rw [List.foldl_cons, dictSet_new d e.1 e.2 hn, ih]
      · simp
      · simpa using hd
  exact this l [] (by simpa using h)

/-! ## Values -/

mutual

theorem reads_read (E : Env) : (t : Ty) → (v : Val) → (bs : Bytes) → Enc E t v bs →
    Reads (read E t) bs v
  | .final, _, _, h => by simp [Enc] at h
  | .null, v, bs, h => by
    rw [Enc] at h; obtain ⟨rfl, rfl⟩ := h; rw [read]; exact reads_pure _
  | .bool, v, bs, h => by
    rw [Enc] at h
    obtain ⟨b, rfl, rfl⟩ := h
    rw [read]
    have := reads_map (f := fun n => Val.bool (decide (n ≠ 0)))
      (reads_unsigned (size := 1) (n := if b then 1 else 0) (by cases b <;> decide))
    cases b <;> exact this
  | .int size, v, bs, h => by
    rw [Enc] at h
    obtain ⟨i, rfl, hs, h1, h2, rfl⟩ := h
    rw [read]
    exact reads_map (reads_signed hs h1 h2)
  | .uint size, v, bs, h => by
    rw [Enc] at h
    obtain ⟨n, rfl, hn, rfl⟩ := h
    rw [read]
    exact reads_map (f := fun n : Nat => Val.int n) (reads_unsigned hn)
  | .varint, _, _, h => by simp [Enc] at h
  | .varuint, v, bs, h => by
    rw [Enc] at h
    obtain ⟨n, rfl, hn, rfl⟩ := h
    rw [read]
    exact reads_map (f := fun n : Nat => Val.int n) (reads_leb hn)
  | .f32, v, bs, h => by
    rw [Enc] at h
    obtain ⟨n, rfl, hn, rfl⟩ := h
    rw [read]
    exact reads_map (reads_unsigned (size := 4) hn)
  | .f64, v, bs, h => by
    rw [Enc] at h
    obtain ⟨n, rfl, hn, rfl⟩ := h
    rw [read]
    exact reads_map (reads_unsigned (size := 8) hn)
  | .bytes, v, bs, h => by
    rw [Enc] at h
    obtain ⟨b, rfl, hb, rfl⟩ := h
    rw [read]
    exact reads_map (reads_bytes hb)
  | .string, v, bs, h => by
    rw [Enc] at h
    obtain ⟨b, rfl, hb, rfl⟩ := h
    rw [read]
    exact reads_map (reads_string hb)
  | .object _ fields, v, bs, h => by
    rw [Enc] at h
    obtain ⟨l, rfl, hl⟩ := h
    rw [read]
    exact reads_map (reads_readFields E fields l bs hl)
  | .enum base items, v, bs, h => by
    rw [Enc] at h
    obtain ⟨i, name, rfl, hn, hb⟩ := h
    rw [read]
    have := reads_bind (reads_read E base (.int i) bs hb)
      (f := fun v => (valInt v).bind fun i => .pure (enumMember items i))
      (reads_map (f := enumMember items) (a := i) (p := valInt (.int i)) (reads_pure i))
    rwa [List.append_nil, enumMember_name hn] at this
  | .array t, v, bs, h => by
    rw [Enc] at h
    obtain ⟨l, b, rfl, hl, rfl, hb⟩ := h
    rw [read]
    exact reads_bind (reads_leb hl) (reads_map (reads_all (reads_read E t) l b hb))
  | .fixedArray n t, v, bs, h => by
    rw [Enc] at h
    obtain ⟨l, rfl, rfl, hb⟩ := h
    rw [read]
    exact reads_map (reads_all (reads_read E t) l bs hb)
  | .map t, v, bs, h => by
    rw [Enc] at h
    obtain ⟨l, b, rfl, hl, hd, rfl, hb⟩ := h
    rw [read]
    have := reads_map (f := fun l => Val.dict (dictOf l)) (reads_all
      (p := (readString E).bind fun k => (read E t).bind fun v => .pure (k, v))
      (fun (e : Bytes × Val) b he => by
        obtain ⟨b2, rfl, ht, hv⟩ := he
        exact reads_bind (reads_string ht) (reads_map (reads_read E t e.2 b2 hv))) l b hb)
    rw [dictOf_nodup l hd] at this
    exact reads_bind (reads_leb hl) this
  | .union ts, v, bs, h => by
    rw [Enc] at h
    obtain ⟨i, b, hi, rfl, hb⟩ := h
    rw [read]
    exact reads_bind (reads_leb hi) (reads_readNth E ts i v b hb)
  | .timestamp, v, bs, h => by
    rw [Enc] at h; rw [read]; exact reads_time h
  | .duration, v, bs, h => by
    rw [Enc] at h; rw [read]; exact reads_time h

theorem reads_readFields (E : Env) : (fs : Fields) → (l : List (Bytes × Val)) → (bs : Bytes) →
    EncFields E fs l bs → Reads (readFields E fs) bs l
  | .nil, l, bs, h => by
    rw [EncFields] at h; obtain ⟨rfl, rfl⟩ := h; rw [readFields]; exact reads_pure _
  | .cons _ name _ t _ rest, l, bs, h => by
    rw [EncFields] at h
    obtain ⟨v, l', b1, b2, rfl, rfl, h1, h2⟩ := h
    rw [readFields]
    exact reads_bind (reads_read E t v b1 h1) (reads_map (reads_readFields E rest l' b2 h2))

theorem reads_readNth (E : Env) : (ts : Tys) → (i : Nat) → (v : Val) → (bs : Bytes) →
    EncNth E ts i v bs → Reads (readNth E ts i) bs v
  | .nil, i, v, bs, h => by simp [EncNth] at h
  | .cons t _, 0, v, bs, h => by
    rw [EncNth] at h; rw [readNth]; exact reads_read E t v bs h
  | .cons _ rest, i + 1, v, bs, h => by
    rw [EncNth] at h; rw [readNth]; exact reads_readNth E rest i v bs h

end

/-- C28: a value is read back, and exactly its bytes are consumed. -/
theorem C28_value (E : Env) (t : Ty) (v : Val) (bs : Bytes) (h : Enc E t v bs) (rest : Bytes) :
    read E t (bs ++ rest) = .ok (v, rest) := reads_read E t v bs h rest

/-- C28: values of a schema with the same binary form are equal, and no binary
form is a proper prefix of another. -/
theorem C28_unambiguous (E : Env) (t : Ty) (v w : Val) (bs cs xs ys : Bytes)
    (h1 : Enc E t v bs) (h2 : Enc E t w cs) (h : bs ++ xs = cs ++ ys) : v = w ∧ bs = cs ∧ xs = ys := by
  have e1 := C28_value E t v bs h1 xs
  have e2 := C28_value E t w cs h2 ys
  rw [h, e2] at e1
  injection e1 with e1
  injection e1 with e1 e3
  refine ⟨e1.symm, ?_, e3.symm⟩
  rw [e3] at h
  exact List.append_cancel_right h

/-! ## Schemas -/

/-- Reads for every sufficiently large bound. -/
def ReadsF (p : Nat → P α) (bs : Bytes) (a : α) : Prop :=
  ∃ N, ∀ fuel, N ≤ fuel → Reads (p fuel) bs a

theorem schema_not_final {E : Env} {t : Ty} {bs : Bytes} (h : Schema E t bs) : isFinal t = false := by
  cases t
  case final => simp [Schema] at h
  all_goals rfl

theorem reads_default {E : Env} {t : Ty} {d : Option Val} {bs : Bytes} (h : Default E t d bs) :
    Reads (readDefault E t) bs d := by
  cases d with
  | none =>
    rw [Default] at h
    subst h
    intro rest
    rfl
  | some v =>
    obtain ⟨b, rfl, hb⟩ := h
    have h1 : Reads (readUnsigned 1) [1] 1 := reads_unsigned (size := 1) (n := 1) (by decide)
    exact reads_bind h1 (reads_map (f := some) (reads_read E t v b hb))

theorem all_map (R : α → Bytes → Prop) (f : α → Bytes) (l : List α) (h : ∀ a ∈ l, R a (f a)) :
    All R l (l.map f).flatten := by
  induction l with
  | nil => rfl
  | cons a l ih =>
    exact ⟨f a, (l.map f).flatten, rfl, h a (by simp), ih fun b hb => h b (by simp [hb])⟩

theorem reads_head {E : Env} {flags : Nat} {name : Bytes} {aliases : List Bytes} {head : Bytes}
    (h : Head E flags name aliases head) (f : Nat → Bytes → List Bytes → P β) {bs : Bytes} {c : β}
    (hf : Reads (f flags name aliases) bs c) :
    Reads (readVaruint.bind fun flags => (readString E).bind fun name =>
      readVaruint.bind fun n => ((readString E).times n).bind fun aliases => f flags name aliases)
      (head ++ bs) c := by
  obtain ⟨h1, h2, h3, h4, rfl⟩ := h
  rw [List.append_assoc, List.append_assoc, List.append_assoc]
  refine reads_bind (reads_leb h1) (reads_bind (reads_string h2) (reads_bind (reads_leb h3)
    (reads_bind (reads_all (R := fun a b => Text E a ∧ b = str a) ?_ _ _ ?_) hf)))
  · rintro a b ⟨ha, rfl⟩
    exact reads_string ha
  · exact all_map _ _ _ fun a ha => ⟨h4 a ha, rfl⟩

theorem reads_tag (n : Nat) (b : UInt8) (h : b.toNat = n) (hn : n < 128) :
    Reads readVaruint [b] n := by
  have := reads_leb (n := n) (by omega)
  rw [leb, if_pos hn, ← h, UInt8.ofNat_toNat] at this
  rwa [h] at this

theorem parseType_tag (E : Env) (fuel n : Nat) (b : UInt8) (h : b.toNat = n) (hn : n < 128)
    {t : Ty} {bs : Bytes} (f : Nat → P Ty)
    (hf : parseType E (fuel + 1) = readVaruint.bind f) (hr : Reads (f n) bs t) :
    Reads (parseType E (fuel + 1)) (b :: bs) t := by
  rw [hf]
  exact reads_bind (reads_tag n b h hn) hr

theorem reads_item {E : Env} {base : Ty} {e : Bytes × Int} {b : Bytes}
    (h : ∃ b', b = b' ++ str e.1 ∧ Text E e.1 ∧ Enc E base (.int e.2) b') :
    Reads (readItem E base) b e := by
  obtain ⟨b', rfl, ht, hv⟩ := h
  refine reads_bind (reads_read E base _ b' hv) ?_
  have := reads_bind (reads_string ht) (f := fun k => (valInt (.int e.2)).bind fun i => .pure (k, i))
    (reads_map (f := fun i => (e.1, i)) (p := valInt (.int e.2)) (a := e.2) (reads_pure e.2))
  rwa [List.append_nil] at this

theorem readsF_const (E : Env) (n : Nat) (b : UInt8) (h : b.toNat = n) (hn : n < 128) (t : Ty)
    (ht : ∀ fuel, ∃ f : Nat → P Ty, parseType E (fuel + 1) = readVaruint.bind f ∧ f n = .pure t) :
    ReadsF (parseType E) [b] t := by
  refine ⟨1, fun fuel hf => ?_⟩
  obtain ⟨k, rfl⟩ : ∃ k, fuel = k + 1 := ⟨fuel - 1, by omega⟩
  obtain ⟨f, hf1, hf2⟩ := ht k
  refine parseType_tag E k n b h hn f hf1 ?_
  rw [hf2]
  exact reads_pure t

theorem readsF_step (E : Env) (n : Nat) (b : UInt8) (h : b.toNat = n) (hn : n < 128) {t : Ty}
    {bs : Bytes} (q : Nat → P Ty)
    (hq : ∀ fuel, ∃ f : Nat → P Ty, parseType E (fuel + 1) = readVaruint.bind f ∧ f n = q fuel)
    (hr : ReadsF q bs t) : ReadsF (parseType E) (b :: bs) t := by
  obtain ⟨N, hN⟩ := hr
  refine ⟨N + 1, fun fuel hf => ?_⟩
  obtain ⟨k, rfl⟩ : ∃ k, fuel = k + 1 := ⟨fuel - 1, by omega⟩
  obtain ⟨f, hf1, hf2⟩ := hq k
  refine parseType_tag E k n b h hn f hf1 ?_
  rw [hf2]
  exact hN k (by omega)

mutual

theorem reads_schema (E : Env) : (t : Ty) → (bs : Bytes) → Schema E t bs →
    ReadsF (parseType E) bs t
  | .final, _, h => by simp [Schema] at h
  | .null, _, h => by
    rw [Schema] at h; subst h
    exact readsF_const E 1 1 rfl (by decide) _ fun _ => ⟨_, rfl, rfl⟩
  | .bool, _, h => by
    rw [Schema] at h; subst h
    exact readsF_const E 2 2 rfl (by decide) _ fun _ => ⟨_, rfl, rfl⟩
  | .int size, _, h => by
    rw [Schema] at h
    obtain ⟨hs, rfl⟩ := h
    refine readsF_step E 3 3 rfl (by decide) _ (fun _ => ⟨_, rfl, rfl⟩) ⟨0, fun _ _ => ?_⟩
    simp only [List.mem_cons, List.not_mem_nil, or_false] at hs
    rcases hs with rfl | rfl | rfl | rfl <;> exact fun _ => rfl
  | .uint size, _, h => by
    rw [Schema] at h
    obtain ⟨hs, rfl⟩ := h
    refine readsF_step E 4 4 rfl (by decide) _ (fun _ => ⟨_, rfl, rfl⟩) ⟨0, fun _ _ => ?_⟩
    simp only [List.mem_cons, List.not_mem_nil, or_false] at hs
    rcases hs with rfl | rfl | rfl | rfl <;> exact fun _ => rfl
  | .varint, _, h => by
    rw [Schema] at h; subst h
    exact readsF_const E 5 5 rfl (by decide) _ fun _ => ⟨_, rfl, rfl⟩
  | .varuint, _, h => by
    rw [Schema] at h; subst h
    exact readsF_const E 6 6 rfl (by decide) _ fun _ => ⟨_, rfl, rfl⟩
  | .f32, _, h => by
    rw [Schema] at h; subst h
    exact readsF_const E 7 7 rfl (by decide) _ fun _ => ⟨_, rfl, rfl⟩
  | .f64, _, h => by
    rw [Schema] at h; subst h
    exact readsF_const E 8 8 rfl (by decide) _ fun _ => ⟨_, rfl, rfl⟩
  | .bytes, _, h => by
    rw [Schema] at h; subst h
    exact readsF_const E 9 9 rfl (by decide) _ fun _ => ⟨_, rfl, rfl⟩
  | .string, _, h => by
    rw [Schema] at h; subst h
    exact readsF_const E 10 10 rfl (by decide) _ fun _ => ⟨_, rfl, rfl⟩
  | .object flags fields, bs, h => by
    rw [Schema] at h
    obtain ⟨h1, h2, oflags, b, h3, rfl, h4⟩ := h
    obtain ⟨N, hN⟩ := reads_schemaFields E fields flags b h4
    refine readsF_step E 16 16 rfl (by decide) _ (fun _ => ⟨_, rfl, rfl⟩) ⟨N, fun fuel hf => ?_⟩
    refine reads_bind (reads_leb h3) ?_
    have := reads_bind (hN fuel hf) (f := fun r => makeObject E r.1 r.2)
      (b2 := []) (c := Ty.object flags fields) (by
        simp only [makeObject]
        rw [if_pos ⟨h1, h2⟩]
        exact reads_pure _)
    rwa [List.append_nil] at this
  | .enum base items, bs, h => by
    rw [Schema] at h
    obtain ⟨hne, hl, hd, hn, b1, b2, rfl, h1, h2⟩ := h
    obtain ⟨N, hN⟩ := reads_schema E base b1 h1
    rw [List.cons_append, List.cons_append, List.append_assoc]
    refine readsF_step E 17 17 rfl (by decide) _ (fun _ => ⟨_, rfl, rfl⟩) ⟨N, fun fuel hf => ?_⟩
    refine reads_bind (hN fuel hf) (reads_bind (reads_leb hl) ?_)
    have := reads_bind (reads_all (fun e b => reads_item (E := E) (base := base)) items b2 h2)
      (f := fun l => makeEnum E base (dictOf l)) (b2 := []) (c := Ty.enum base items) (by
        rw [dictOf_nodup items hd]
        simp only [makeEnum]
        have : items.length ≠ 0 := by simpa using hne
        rw [if_neg this, if_pos hn]
        exact reads_pure _)
    rwa [List.append_nil] at this
  | .array t, bs, h => by
    rw [Schema] at h
    obtain ⟨b, rfl, hb⟩ := h
    obtain ⟨N, hN⟩ := reads_schema E t b hb
    exact readsF_step E 18 18 rfl (by decide) _ (fun _ => ⟨_, rfl, rfl⟩)
      ⟨N, fun fuel hf => reads_map (hN fuel hf)⟩
  | .fixedArray n t, bs, h => by
    rw [Schema] at h
    obtain ⟨b, hn, rfl, hb⟩ := h
    obtain ⟨N, hN⟩ := reads_schema E t b hb
    exact readsF_step E 19 19 rfl (by decide) _ (fun _ => ⟨_, rfl, rfl⟩)
      ⟨N, fun fuel hf => reads_bind (reads_leb hn) (reads_map (hN fuel hf))⟩
  | .map t, bs, h => by
    rw [Schema] at h
    obtain ⟨b, rfl, hb⟩ := h
    obtain ⟨N, hN⟩ := reads_schema E t b hb
    exact readsF_step E 20 20 rfl (by decide) _ (fun _ => ⟨_, rfl, rfl⟩)
      ⟨N, fun fuel hf => reads_map (hN fuel hf)⟩
  | .union ts, bs, h => by
    rw [Schema] at h
    obtain ⟨b, rfl, hb⟩ := h
    obtain ⟨N, hN⟩ := reads_schemaTys E ts b hb
    exact readsF_step E 21 21 rfl (by decide) _ (fun _ => ⟨_, rfl, rfl⟩)
      ⟨N, fun fuel hf => reads_map (hN fuel hf)⟩
  | .timestamp, _, h => by
    rw [Schema] at h; subst h
    exact readsF_const E 22 22 rfl (by decide) _ fun _ => ⟨_, rfl, rfl⟩
  | .duration, _, h => by
    rw [Schema] at h; subst h
    exact readsF_const E 23 23 rfl (by decide) _ fun _ => ⟨_, rfl, rfl⟩

theorem reads_schemaFields (E : Env) : (fs : Fields) → (last : Nat) → (bs : Bytes) →
    SchemaFields E fs last bs → ReadsF (parseFields E) bs (last, fs)
  | .nil, last, bs, h => by
    rw [SchemaFields] at h
    obtain ⟨name, aliases, head, hh, rfl⟩ := h
    refine ⟨2, fun fuel hf => ?_⟩
    obtain ⟨k, rfl⟩ : ∃ k, fuel = k + 1 + 1 := ⟨fuel - 2, by omega⟩
    rw [parseFields]
    exact reads_head hh _ fun rest => rfl
  | .cons flags name aliases t d rest, last, bs, h => by
    rw [SchemaFields] at h
    obtain ⟨head, b1, b2, b3, hh, rfl, h1, h2, h3⟩ := h
    obtain ⟨N1, hN1⟩ := reads_schema E t b1 h1
    obtain ⟨N2, hN2⟩ := reads_schemaFields E rest last b3 h3
    refine ⟨N1 + N2 + 1, fun fuel hf => ?_⟩
    obtain ⟨k, rfl⟩ : ∃ k, fuel = k + 1 := ⟨fuel - 1, by omega⟩
    rw [parseFields, List.append_assoc, List.append_assoc]
    refine reads_head hh _ (reads_bind (hN1 k (by omega)) (reads_bind (reads_default h2) ?_))
    rw [if_neg (by rw [schema_not_final h1]; decide)]
    exact reads_map (f := fun r : Nat × Fields => (r.1, Fields.cons flags name aliases t d r.2))
      (hN2 k (by omega))

theorem reads_schemaTys (E : Env) : (ts : Tys) → (bs : Bytes) → SchemaTys E ts bs →
    ReadsF (parseUnion E) bs ts
  | .nil, bs, h => by
    rw [SchemaTys] at h
    subst h
    refine ⟨2, fun fuel hf => ?_⟩
    obtain ⟨k, rfl⟩ : ∃ k, fuel = k + 1 + 1 := ⟨fuel - 2, by omega⟩
    exact fun rest => rfl
  | .cons t rest, bs, h => by
    rw [SchemaTys] at h
    obtain ⟨b1, b2, rfl, h1, h2⟩ := h
    obtain ⟨N1, hN1⟩ := reads_schema E t b1 h1
    obtain ⟨N2, hN2⟩ := reads_schemaTys E rest b2 h2
    refine ⟨N1 + N2 + 1, fun fuel hf => ?_⟩
    obtain ⟨k, rfl⟩ : ∃ k, fuel = k + 1 := ⟨fuel - 1, by omega⟩
    rw [parseUnion]
    refine reads_bind (hN1 k (by omega)) ?_
    rw [if_neg (by rw [schema_not_final h1]; decide)]
    exact reads_map (hN2 k (by omega))

end

/-- C28: an announced schema is read back, and exactly its bytes are consumed.
(Of an object the flags of the terminating field are kept, see
`C28_object_flags_refuted`.) -/
theorem C28_schema (E : Env) (t : Ty) (bs : Bytes) (h : Schema E t bs) (rest : Bytes) :
    fromBinary E (bs ++ rest) = .ok (t, rest) := by
  obtain ⟨N, hN⟩ := reads_schema E t bs h
  let M := N + (2 * (bs ++ rest).length + 1)
  rw [(fromBinary_eq E (bs ++ rest) M (by simp only [M]; omega)).1]
  exact hN M (by simp only [M]; omega) rest

/-- C28: the schema that was parsed decodes the data that follows it on another
stream, and leaves what comes after. -/
theorem C28_round_trip (E : Env) (t : Ty) (v : Val) (schema data r1 r2 : Bytes)
    (h1 : Schema E t schema) (h2 : Enc E t v data) :
    ∃ t', fromBinary E (schema ++ r1) = .ok (t', r1) ∧ read E t' (data ++ r2) = .ok (v, r2) :=
  ⟨t, C28_schema E t schema h1 r1, C28_value E t v data h2 r2⟩

/-! ## Limits -/

/-- The flags of an object are lost: the parser returns those of the
terminating field instead. -/
theorem C28_object_flags_refuted (E : Env) (n m : Nat) (hn : n < 2 ^ 64) (hm : m < 2 ^ 64)
    (ht : E.utf8 [] = true) :
    ∃ bs, fromBinary E (16 :: leb n ++ bs) = .ok (.object m .nil, []) ∧
      bs = leb m ++ [0, 0, 0, 0] := by
  refine ⟨_, ?_, rfl⟩
  have := C28_schema E (.object m .nil) (16 :: leb n ++ (leb m ++ [0, 0, 0, 0])) (by
    rw [Schema]
    refine ⟨by simp [Fields.names], by simp [Fields.names], n, _, hn, rfl, ?_⟩
    rw [SchemaFields]
    refine ⟨[], [], leb m ++ [0, 0], ⟨hm, ⟨ht, by simp⟩, by simp, by simp, ?_⟩, by simp⟩
    have : leb 0 = [0] := by rw [leb]; rfl
    simp [str, this]) []
  rwa [List.append_nil] at this

/-- Signed variable length integers can be announced but not read. -/
theorem C28_varint_refuted (E : Env) (bs : Bytes) :
    fromBinary E (5 :: bs) = .ok (.varint, bs) ∧ read E .varint bs = .error .notImplemented :=
  ⟨C28_schema E .varint [5] (by rw [Schema]) bs, rfl⟩

/-- Two fields whose names differ can collide after the escape of keywords:
`if` and `py_if`. -/
theorem C28_escape_refuted (E : Env) : ∃ a b : Bytes, a ≠ b ∧ escape a = escape b ∧
    ∀ t u bs, makeObject E 0 (.cons 0 a [] t none (.cons 0 b [] u none .nil)) bs = .error .value := by
  have h : escape [105, 102] = escape [112, 121, 95, 105, 102] := by decide +kernel
  refine ⟨[105, 102], [112, 121, 95, 105, 102], by decide, h, fun t u bs => ?_⟩
  unfold makeObject
  rw [if_neg]
  · rfl
  · rintro ⟨_, hn⟩
    simp only [Fields.names, h] at hn
    simp at hn

/-- C28: a time of at most 2^53 microseconds is the double nearest to the
number of seconds; below 2^52 microseconds (until the year 2112) it determines
the microseconds. -/
theorem C28_time (us : Int) (h : |us| ≤ 2 ^ 53) :
    seconds us = b64.roundQ ((us : ℚ) / 1000000) ∧
      (|us| < 2 ^ 52 → |seconds us * 1000000 - us| < 1 / 2 ∧ rne (seconds us * 1000000) = us) := by
  have e : b64.roundQ (us : ℚ) = us := roundQ_int (by decide) (by decide) h
  have e1 : seconds us = b64.roundQ ((us : ℚ) / 1000000) := by unfold seconds; rw [e]
  refine ⟨e1, fun h2 => ?_⟩
  have key : |seconds us * 1000000 - us| < 1 / 2 := by
    rw [e1]
    by_cases h0 : us = 0
    · subst h0
      have : b64.roundQ (((0 : Int) : ℚ) / 1000000) = 0 := by simpa using roundQ_zero b64
      rw [this]; norm_num
    have hge : (1 : ℚ) ≤ |(us : ℚ)| := by
      have : (1 : Int) ≤ |us| := Int.one_le_abs h0
      exact_mod_cast this
    have hlt : |(us : ℚ)| < 2 ^ 52 := by exact_mod_cast h2
    have hx : |(us : ℚ) / 1000000| = |(us : ℚ)| / 1000000 := by
      rw [abs_div, abs_of_pos (by norm_num : (0 : ℚ) < 1000000)]
    have hb : pow2 (b64.emin + b64.prec - 1) ≤ |(us : ℚ) / 1000000| := by
      have h1 : pow2 (b64.emin + b64.prec - 1) ≤ pow2 (-20) := pow2_le (by decide)
      have h3 : pow2 (-20) = 1 / 1048576 := by rw [pow2_eq]; norm_num
      rw [hx]
      rw [h3] at h1
      refine h1.trans ?_
      rw [le_div_iff₀ (by norm_num)]
      linarith
    have hr := roundQ_rel_err hb
    have h4 : pow2 (-(b64.prec : Int)) = 1 / 2 ^ 53 := by
      rw [pow2_eq]; norm_num [b64]
    rw [h4, hx] at hr
    have : (b64.roundQ ((us : ℚ) / 1000000) * 1000000 - us) =
        (b64.roundQ ((us : ℚ) / 1000000) - us / 1000000) * 1000000 := by ring
    rw [this, abs_mul, abs_of_pos (by norm_num : (0 : ℚ) < 1000000)]
    norm_num at hr hlt ⊢
    linarith
  refine ⟨key, ?_⟩
  have h5 := rne_err (seconds us * 1000000)
  have h6 : |((rne (seconds us * 1000000) : ℚ)) - us| < 1 := by
    have := abs_sub_le (rne (seconds us * 1000000) : ℚ) (seconds us * 1000000) us
    linarith
  have h7 : |rne (seconds us * 1000000) - us| < 1 := by exact_mod_cast h6
  have := Int.abs_lt_one_iff.mp h7
  omega

/-- C28: longer times are not told apart. -/
theorem C28_time_refuted : seconds (2 ^ 53) = seconds (2 ^ 53 + 1) := by
  have h1 : b64.roundQ (((2 ^ 53 : Int)) : ℚ) = 2 ^ 53 := by
    rw [roundQ_int (by decide) (by decide) (by decide)]; norm_num
  have h2 : b64.roundQ (((2 ^ 53 + 1 : Int)) : ℚ) = 2 ^ 53 := by decide +kernel
  unfold seconds
  rw [h1, h2]

/-! ## An example -/

theorem leb_small {n : Nat} (h : n < 128) : leb n = [UInt8.ofNat n] := by rw [leb, if_pos h]

/-- An object with fields of several kinds. -/
def exampleType : Ty :=
  .object 0 (.cons 0 [109] [[110]] (.enum (.uint 1) [([97], 3), ([98], 4)]) (some (.enum 4 [98]))
    (.cons 0 [105, 102] [] (.array (.int 2)) none
      (.cons 0 [112] [] (.map (.union (.cons .null (.cons .f32 .nil)))) none .nil)))

def exampleSchema : Bytes :=
  [16, 7] ++ ([0, 1, 109, 1, 1, 110] ++ [17, 4, 1, 2, 3, 1, 97, 4, 1, 98] ++ [1, 4] ++
   ([0, 2, 105, 102, 0] ++ [18, 3, 2] ++ [0] ++
   ([0, 1, 112, 0] ++ [20, 21, 1, 7, 0] ++ [0] ++
   ([0, 0, 0] ++ [0, 0]))))

def exampleValue : Val :=
  .tuple [([109], .enum 3 [97]), ([112, 121, 95, 105, 102], .list [.int 5, .int (-1)]),
    ([112], .dict [([120], .none), ([121], .f32 0x3f800000)])]

def exampleData : Bytes :=
  [3] ++ ([2, 5, 0, 255, 255] ++ ([2, 1, 120, 0, 1, 121, 1, 0, 0, 128, 63] ++ []))

theorem example_schema : Schema anyEnv exampleType exampleSchema := by
  have hhead : ∀ flags name aliases head, flags < 128 → name.length < 128 → aliases.length < 128 →
      (∀ a ∈ aliases, a.length < 128) →
      head = UInt8.ofNat flags :: UInt8.ofNat name.length :: name ++
        UInt8.ofNat aliases.length :: (aliases.map fun a => UInt8.ofNat a.length :: a).flatten →
      Head anyEnv flags name aliases head := by
    intro flags name aliases head h1 h2 h3 h4 rfl'
    refine ⟨by omega, ⟨rfl, by omega⟩, by omega, fun a ha => ⟨rfl, by have := h4 a ha; omega⟩, ?_⟩
    subst rfl'
    have : aliases.map str = aliases.map fun a => UInt8.ofNat a.length :: a := by
      apply List.map_congr_left
      intro a ha
      rw [str, leb_small (h4 a ha)]; rfl
    rw [this, str, leb_small h1, leb_small h2, leb_small h3]
    simp
  have hu : ∀ n, n < 128 → Enc anyEnv (.uint 1) (.int (n : Nat)) [UInt8.ofNat n] := by
    intro n hn
    rw [Enc]
    refine ⟨n, rfl, by omega, ?_⟩
    simp [le, Nat.mod_eq_of_lt (by omega : n < 256)]
  unfold exampleType exampleSchema
  rw [Schema]
  refine ⟨fun _ _ => rfl, by decide +kernel, 7, _, by decide, by rw [leb_small (by decide)]; rfl, ?_⟩
  rw [SchemaFields]
  refine ⟨_, _, _, _, hhead _ _ _ _ (by decide) (by decide) (by decide) (by decide) rfl, rfl, ?_, ?_, ?_⟩
  · rw [Schema]
    refine ⟨by decide, by decide, by decide, rfl, [4, 1], [3, 1, 97, 4, 1, 98], ?_, ?_, ?_⟩
    · rw [leb_small (by decide)]; rfl
    · rw [Schema]; exact ⟨by decide, rfl⟩
    · refine ⟨[3, 1, 97], [4, 1, 98], rfl, ⟨[3], ?_, ⟨rfl, by decide⟩, hu 3 (by decide)⟩,
        [4, 1, 98], [], rfl, ⟨[4], ?_, ⟨rfl, by decide⟩, hu 4 (by decide)⟩, rfl⟩
      · rw [str, leb_small (by decide)]; rfl
      · rw [str, leb_small (by decide)]; rfl
  · refine ⟨[4], rfl, ?_⟩
    rw [Enc]
    exact ⟨4, [98], rfl, Or.inl ⟨[([97], 3)], [], rfl, by decide⟩, hu 4 (by decide)⟩
  rw [SchemaFields]
  refine ⟨_, _, _, _, hhead _ _ _ _ (by decide) (by decide) (by decide) (by decide) rfl, rfl, ?_, rfl, ?_⟩
  · rw [Schema]
    refine ⟨[3, 2], rfl, ?_⟩
    rw [Schema]; exact ⟨by decide, rfl⟩
  rw [SchemaFields]
  refine ⟨_, _, _, _, hhead _ _ _ _ (by decide) (by decide) (by decide) (by decide) rfl, rfl, ?_, rfl, ?_⟩
  · rw [Schema]
    refine ⟨[21, 1, 7, 0], rfl, ?_⟩
    rw [Schema]
    refine ⟨[1, 7, 0], rfl, ?_⟩
    rw [SchemaTys]
    refine ⟨[1], [7, 0], rfl, by rw [Schema], ?_⟩
    rw [SchemaTys]
    refine ⟨[7], [0], rfl, by rw [Schema], ?_⟩
    rw [SchemaTys]
  rw [SchemaFields]
  exact ⟨[], [], _, hhead _ _ _ _ (by decide) (by decide) (by decide) (by decide) rfl, rfl⟩

theorem example_value : Enc anyEnv exampleType exampleValue exampleData := by
  have e : escape [105, 102] = [112, 121, 95, 105, 102] := by decide +kernel
  have e1 : escape [109] = [109] := by decide +kernel
  have e2 : escape [112] = [112] := by decide +kernel
  unfold exampleType exampleValue exampleData
  rw [Enc]
  refine ⟨_, rfl, ?_⟩
  rw [EncFields]
  refine ⟨_, _, _, _, by rw [e1], rfl, ?_, ?_⟩
  · rw [Enc]
    refine ⟨3, [97], rfl, Or.inl ⟨[], [([98], 4)], rfl, by simp⟩, ?_⟩
    rw [Enc]
    exact ⟨3, rfl, by decide, rfl⟩
  rw [EncFields]
  refine ⟨_, _, _, _, by rw [e], rfl, ?_, ?_⟩
  · rw [Enc]
    refine ⟨_, [5, 0, 255, 255], rfl, by decide, by rw [leb_small (by decide)]; rfl,
      [5, 0], [255, 255], rfl, ?_, [255, 255], [], rfl, ?_, rfl⟩
    · rw [Enc]; exact ⟨5, rfl, by decide, by decide, by decide, rfl⟩
    · rw [Enc]; exact ⟨-1, rfl, by decide, by decide, by decide, rfl⟩
  rw [EncFields]
  refine ⟨_, _, _, _, by rw [e2], rfl, ?_, by rw [EncFields]; exact ⟨rfl, rfl⟩⟩
  rw [Enc]
  refine ⟨_, [1, 120, 0, 1, 121, 1, 0, 0, 128, 63], rfl, by decide, by simp,
    by rw [leb_small (by decide)]; rfl,
    [1, 120, 0], [1, 121, 1, 0, 0, 128, 63], rfl, ⟨[0], ?_, ⟨rfl, by decide⟩, ?_⟩,
    [1, 121, 1, 0, 0, 128, 63], [], rfl, ⟨[1, 0, 0, 128, 63], ?_, ⟨rfl, by decide⟩, ?_⟩, rfl⟩
  · rw [str, leb_small (by decide)]; rfl
  · rw [Enc]
    refine ⟨0, [], by decide, by rw [leb_small (by decide)]; rfl, ?_⟩
    rw [EncNth, Enc]; exact ⟨rfl, rfl⟩
  · rw [str, leb_small (by decide)]; rfl
  · rw [Enc]
    refine ⟨1, [0, 0, 128, 63], by decide, by rw [leb_small (by decide)]; rfl, ?_⟩
    rw [EncNth, EncNth, Enc]
    exact ⟨0x3f800000, rfl, by decide, rfl⟩

/-- The hypotheses of `C28_round_trip` hold for the example. -/
example : ∃ t', fromBinary anyEnv (exampleSchema ++ [9, 9]) = .ok (t', [9, 9]) ∧
    read anyEnv t' (exampleData ++ [1]) = .ok (exampleValue, [1]) :=
  C28_round_trip anyEnv _ _ _ _ _ _ example_schema example_value

/-- A boolean is false exactly when its byte is 0. -/
theorem C28_bool_byte (E : Env) (b : UInt8) (rest : Bytes) :
    read E .bool (b :: rest) = .ok (.bool (decide (b ≠ 0)), rest) := by
  have hb : decide (b.toNat ≠ 0) = decide (b ≠ 0) := by
    have : (b.toNat = 0) ↔ b = 0 := by
      constructor
      · intro h; exact UInt8.toNat_inj.mp h
      · rintro rfl; rfl
    simp [this]
  rw [← hb, read]
  simp [P.bind, readUnsigned, readUpTo, P.pure, leValue]

theorem dictSet_keys (d : List (Bytes × α)) (k : Bytes) (v : α) (h : (d.map Prod.fst).Nodup) :
    ((dictSet d k v).map Prod.fst).Nodup ∧
      ∀ x, x ∈ (dictSet d k v).map Prod.fst → x = k ∨ x ∈ d.map Prod.fst := by
  induction d with
  | nil => simp [dictSet]
  | cons e d ih =>
    obtain ⟨k', v'⟩ := e
    rw [List.map_cons, List.nodup_cons] at h
    obtain ⟨i1, i2⟩ := ih h.2
    unfold dictSet
    split
    · rename_i hk
      subst hk
      exact ⟨by simpa using h, by simp⟩
    · rename_i hk
      refine ⟨?_, ?_⟩
      · rw [List.map_cons, List.nodup_cons]
        refine ⟨fun hm => ?_, i1⟩
        rcases i2 _ hm with g | g
        · exact hk g
        · exact h.1 g
      · intro x hx
        rw [List.map_cons, List.mem_cons] at hx
        rcases hx with g | g
        · right; simp [g]
        · rcases i2 _ g with g | g
          · exact Or.inl g
          · right; simp only [List.map_cons, List.mem_cons]; exact Or.inr g

theorem dictSet_lookup (d : List (Bytes × α)) (k x : Bytes) (v : α) :
    (dictSet d k v).lookup x = if x = k then some v else d.lookup x := by
  induction d with
  | nil =>
    simp only [dictSet, List.lookup]
    by_cases h : x = k
    · simp [h]
    · have : (x == k) = false := by simpa using h
      simp [h, this]
  | cons e d ih =>
    obtain ⟨k', v'⟩ := e
    unfold dictSet
    split
    · rename_i hk
      subst hk
      by_cases h : x = k'
      · simp [h, List.lookup]
      · have : (x == k') = false := by simpa using h
        simp [h, List.lookup, this]
    · rename_i hk
      by_cases h : x = k'
      · subst h
        simp [List.lookup, hk]
      · have : (x == k') = false := by simpa using h
        simp only [List.lookup, this]
        exact ih

/-- A map decodes to a dictionary: every key occurs once, and its value is the one
that was sent last. -/
theorem C28_map_last (l : List (Bytes × α)) :
    ((dictOf l).map Prod.fst).Nodup ∧ ∀ x, (dictOf l).lookup x = l.reverse.lookup x := by
  suffices h : ∀ l d : List (Bytes × α), (d.map Prod.fst).Nodup →
      ((l.foldl (fun d e => dictSet d e.1 e.2) d).map Prod.fst).Nodup ∧
      ∀ x, (l.foldl (fun d e => dictSet d e.1 e.2) d).lookup x = (l.reverse ++ d).lookup x by
    have := h l [] (by simp)
    rw [List.append_nil] at this
    exact this
  intro l
  induction l with
  | nil => intro d hd; exact ⟨hd, fun _ => rfl⟩
  | cons e l ih =>
    intro d hd
    rw [List.foldl_cons]
    obtain ⟨h1, h2⟩ := ih (dictSet d e.1 e.2) (dictSet_keys d e.1 e.2 hd).1
    refine ⟨h1, fun x => ?_⟩
    rw [h2, List.lookup_append, dictSet_lookup, List.reverse_cons, List.append_assoc,
      List.lookup_append]
    congr 1
    obtain ⟨k, v⟩ := e
    by_cases h : x = k
    · simp [h]
    · have : (x == k) = false := by simpa using h
      simp [h, List.lookup, this]

example : dictOf [([1], 5), ([2], 6), ([1], 7)] = [(([1] : Bytes), 7), ([2], 6)] := by decide

end Verif.Telemetry
