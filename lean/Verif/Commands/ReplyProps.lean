import Verif.Commands.QueryLemmas

/-! # Property C10 -/

namespace Verif.Commands

open Verif Verif.Float Verif.Multiplex Verif.Multiplex.Spec Verif.Commands.Spec

namespace Spec

/-- docs/reference.md:507-575 and 577 ff.: registers that can be read and
their documented mapping; registers whose value is a plain integer are
`integer`.  Registers that are missing here have no unit. -/
def regTable : List (Nat × RegKind) :=
  [ (0x000, .integer),
    (0x001, .mapped .position), (0x002, .mapped .velocity), (0x003, .mapped .torque),
    (0x004, .mapped .current), (0x005, .mapped .current), (0x006, .mapped .position),
    (0x007, .mapped .power),
    (0x00a, .mapped .temperature), (0x00b, .integer), (0x00c, .integer),
    (0x00d, .mapped .voltage), (0x00e, .mapped .temperature), (0x00f, .integer),
    (0x030, .mapped .torque), (0x031, .mapped .torque), (0x032, .mapped .torque),
    (0x033, .mapped .torque), (0x034, .mapped .torque),
    (0x038, .mapped .position), (0x039, .mapped .velocity), (0x03a, .mapped .torque),
    (0x03b, .mapped .position), (0x03c, .mapped .velocity), (0x03d, .mapped .torque),
    (0x050, .mapped .position), (0x051, .mapped .velocity), (0x052, .mapped .position),
    (0x053, .mapped .velocity), (0x054, .mapped .position), (0x055, .mapped .velocity),
    (0x058, .integer), (0x05c, .integer), (0x05d, .integer), (0x05e, .integer), (0x05f, .integer),
    (0x060, .mapped .pwm), (0x061, .mapped .pwm), (0x062, .mapped .pwm), (0x063, .mapped .pwm),
    (0x064, .mapped .pwm), (0x068, .mapped .pwm), (0x069, .mapped .pwm), (0x06a, .mapped .pwm),
    (0x06b, .mapped .pwm), (0x06c, .mapped .pwm),
    (0x070, .integer), (0x071, .integer),
    (0x076, .mapped .pwm), (0x077, .mapped .pwm), (0x078, .mapped .pwm), (0x079, .mapped .pwm),
    (0x07a, .mapped .pwm), (0x07b, .mapped .pwm), (0x07c, .mapped .pwm), (0x07d, .mapped .pwm),
    (0x07e, .mapped .pwm), (0x07f, .mapped .pwm) ]

def kindOf (reg : Nat) : RegKind :=
  match regTable.find? (fun e => e.1 == reg) with
  | some e => e.2
  | none => .raw

/-- The number found in a register: an integer for the integer resolutions,
otherwise the float. -/
def number (r : Res) (b : Bytes) : Val :=
  match r with
  | .f32 => .float (unpack32 (leNat b))
  | r => .int (toSigned r.size (leNat b))

/-- `v` is the meaning of the bytes `b` found in register `reg`. -/
def Means (reg : Nat) (r : Res) (b : Bytes) (v : Val) : Prop :=
  match kindOf reg, number r b with
  | .raw, n => v = n
  | .mapped _, .float x => v = .float x
  | .mapped k, .int n =>
    (n = -top r - 1 → v = .float .nan) ∧
    (n ≠ -top r - 1 → v = .float (.fin (b64.roundQ (n * step k r))))
  | .integer, .int n => v = .int n
  | .integer, .float (.fin q) =>
    ∃ n : Int, v = .int n ∧ |(n : ℚ)| ≤ |q| ∧ |q - n| < 1 ∧ (0 ≤ q → 0 ≤ n) ∧ (q ≤ 0 → n ≤ 0)
  | .integer, .float _ => False

/-- An integer register that was transferred as NaN or infinity. -/
def Unreadable (reg : Nat) (r : Res) (b : Bytes) : Prop :=
  kindOf reg = .integer ∧ ∃ x, number r b = .float x ∧ ∀ q, x ≠ .fin q

/-- The last occurrence of a register. -/
def lastOf (l : List (Nat × Res × Bytes)) (reg : Nat) : Option (Res × Bytes) :=
  match l with
  | [] => none
  | (g, r, b) :: l => match lastOf l reg with
    | some x => some x
    | none => if g = reg then some (r, b) else none

end Spec

/-- `d[reg]` -/
def lookup (d : List (Nat × Val)) (reg : Nat) : Option Val :=
  (d.find? (fun e => e.1 = reg)).map Prod.snd

theorem regKind_table (reg : Nat) : regKind reg = kindOf reg := by
  by_cases h : reg < 0x80
  · have : ∀ r < 0x80, regKind r = kindOf r := by decide
    exact this reg h
  · have h1 : kindOf reg = .raw := by
      unfold kindOf
      have : regTable.find? (fun e => e.1 == reg) = none := by
        rw [List.find?_eq_none]
        intro e he
        have : ∀ e ∈ regTable, e.1 < 0x80 := by decide
        have := this e he
        simp only [beq_iff_eq]
        omega
      rw [this]
    rw [h1]
    unfold regKind
    repeat rw [if_neg (by omega)]

theorem pyInt_trunc (q : ℚ) : |((truncQ q : Int) : ℚ)| ≤ |q| ∧ |q - (truncQ q : Int)| < 1 ∧
    (0 ≤ q → 0 ≤ truncQ q) ∧ (q ≤ 0 → truncQ q ≤ 0) := by
  have pos : ∀ q : ℚ, 0 ≤ q → |((truncQ q : Int) : ℚ)| ≤ |q| ∧ |q - (truncQ q : Int)| < 1 := by
    intro q h
    have h0 := truncQ_nonneg h
    have h0' : (0 : ℚ) ≤ (truncQ q : ℚ) := by exact_mod_cast h0
    have : truncQ q = ⌊q⌋ := by simp [truncQ, h]
    have h1 := Int.floor_le q
    have h2 := Int.lt_floor_add_one q
    rw [← this] at h1 h2
    rw [abs_of_nonneg h0', abs_of_nonneg h, abs_lt]
    exact ⟨h1, by linarith, by linarith⟩
  refine ⟨?_, ?_, truncQ_nonneg, ?_⟩
  · rcases le_total 0 q with h | h
    · exact (pos q h).1
    · have := (pos (-q) (by linarith)).1
      rwa [truncQ_neg, abs_neg, Int.cast_neg, abs_neg] at this
  · rcases le_total 0 q with h | h
    · exact (pos q h).2
    · have := (pos (-q) (by linarith)).2
      rw [truncQ_neg] at this
      rw [← abs_neg]
      push_cast at this
      rwa [show -(q - (truncQ q : ℚ)) = -q - -(truncQ q : ℚ) by ring]
  · intro h
    have := truncQ_nonneg (q := -q) (by linarith)
    rw [truncQ_neg] at this; omega

theorem unscale_mapped (k : Kind) (r : Res) (hr : r.IsInt) (n : Int) (hn : |n| ≤ 2 ^ 31) :
    (n = -top r - 1 → unscaleInt n r (k.scale r) = .nan) ∧
    (n ≠ -top r - 1 → unscaleInt n r (k.scale r) = .fin (b64.roundQ (n * step k r))) := by
  have hnv : r.nanValue = -top r - 1 := by
    cases r <;> simp_all [Res.nanValue, top, Res.IsInt]
  constructor
  · intro h; unfold unscaleInt; rw [if_pos (by rw [hnv]; exact h)]
  · intro h
    obtain ⟨d, hd, _⟩ := C04_decode_error n r (k.scale r)
      (by rw [scale_eq_step]; cases k <;> cases r <;> decide +kernel)
      (by rw [scale_eq_step]; cases k <;> cases r <;> decide +kernel) (by rw [hnv]; exact h) hn
    unfold unscaleInt at hd ⊢
    rw [if_neg (by rw [hnv]; exact h)] at hd ⊢
    rw [scale_eq_step] at hd ⊢
    unfold Fmt.round at hd ⊢
    split
    · rfl
    · next hf => rw [if_neg hf] at hd; simp at hd

/-- The value of a register is the documented one, unless it cannot be
read. -/
theorem parseRegister_cases (reg : Nat) (r : Res) (b : Bytes) (hb : b.length = r.size) :
    (¬ Unreadable reg r b ∧ ∃ v, parseRegister reg r b = .ok v ∧ Means reg r b v) ∨
    (Unreadable reg r b ∧ ∃ e, parseRegister reg r b = .error e) := by
  have hn : ∀ r : Res, b.length = r.size → r.IsInt → |toSigned r.size (leNat b)| ≤ 2 ^ 31 := by
    intro r hb hr
    have h1 := toSigned_range (n := r.size) (x := leNat b) r.size_pos (by rw [← hb]; exact leNat_lt b)
    rw [abs_le]
    cases r <;> simp only [Res.size] at h1 ⊢ <;> norm_num at h1 ⊢ <;> omega
  unfold parseRegister Unreadable Means
  rw [regKind_table]
  cases hk : kindOf reg with
  | raw =>
    left
    refine ⟨by simp, _, rfl, ?_⟩
    cases r <;> rfl
  | mapped k =>
    left
    refine ⟨by simp, _, rfl, ?_⟩
    cases r with
    | f32 => rfl
    | int8 =>
      obtain ⟨h1, h2⟩ := unscale_mapped k .int8 (by simp [Res.IsInt]) _ (hn .int8 hb (by simp [Res.IsInt]))
      exact ⟨fun h => congrArg Val.float (h1 h), fun h => congrArg Val.float (h2 h)⟩
    | int16 =>
      obtain ⟨h1, h2⟩ := unscale_mapped k .int16 (by simp [Res.IsInt]) _ (hn .int16 hb (by simp [Res.IsInt]))
      exact ⟨fun h => congrArg Val.float (h1 h), fun h => congrArg Val.float (h2 h)⟩
    | int32 =>
      obtain ⟨h1, h2⟩ := unscale_mapped k .int32 (by simp [Res.IsInt]) _ (hn .int32 hb (by simp [Res.IsInt]))
      exact ⟨fun h => congrArg Val.float (h1 h), fun h => congrArg Val.float (h2 h)⟩
  | integer =>
    cases r with
    | int8 => left; exact ⟨by simp [Spec.number], _, rfl, rfl⟩
    | int16 => left; exact ⟨by simp [Spec.number], _, rfl, rfl⟩
    | int32 => left; exact ⟨by simp [Spec.number], _, rfl, rfl⟩
    | f32 =>
      have hnum : Spec.number .f32 b = .float (unpack32 (leNat b)) := rfl
      have hun : unpackVal .f32 b = .float (unpack32 (leNat b)) := rfl
      simp only [hnum, hun]
      cases hu : unpack32 (leNat b) with
      | nan => right; exact ⟨⟨trivial, _, rfl, by simp⟩, _, rfl⟩
      | inf n => right; exact ⟨⟨trivial, _, rfl, by simp⟩, _, rfl⟩
      | fin q =>
        left
        refine ⟨by simp, _, rfl, truncQ q, rfl, ?_⟩
        exact pyInt_trunc q

/-! ## The loop -/

/-- The effect of the values on the dictionary. -/
def fold : List (Nat × Res × Bytes) → List (Nat × Val) → Except Err (List (Nat × Val))
  | [], d => .ok d
  | (reg, r, b) :: l, d =>
    match parseRegister reg r b with
    | .error e => .error e
    | .ok v => fold l (dictSet d reg v)

theorem parseReplyLoop_eq (fuel : Nat) (p : RegisterParser) (d : List (Nat × Val))
    (l : List (Nat × Res × Bytes)) (h : RegisterParser.loop fuel p = some (.ok l)) :
    parseReplyLoop fuel p d = some (fold l d) := by
  induction fuel generalizing p d l with
  | zero => simp [RegisterParser.loop] at h
  | succ fuel ih =>
    unfold RegisterParser.loop at h
    unfold parseReplyLoop
    cases hn : p.next with
    | mk o p' =>
      rw [hn] at h
      cases o with
      | none => simp only [Option.some.injEq, Except.ok.injEq] at h; subst h; rfl
      | some x =>
        obtain ⟨reg, res⟩ := x
        simp only at h ⊢
        cases hr : p'.read res with
        | error e => rw [hr] at h; simp at h
        | ok y =>
          obtain ⟨b, p''⟩ := y
          rw [hr] at h
          simp only at h ⊢
          cases hl : RegisterParser.loop fuel p'' with
          | none => rw [hl] at h; simp at h
          | some q =>
            rw [hl] at h
            cases q with
            | error e => simp at h
            | ok l' =>
              simp only [Option.some.injEq, Except.ok.injEq] at h
              subst h
              cases hp : parseRegister reg res b with
              | error e => simp [fold, hp]
              | ok v => simp only [fold, hp]; exact ih _ _ _ hl

theorem parseReply_eq {data : Bytes} {l : List (Nat × Res × Bytes)}
    (h : parse data = some (.ok l)) : parseReply data = some (fold l []) :=
  parseReplyLoop_eq _ _ _ _ h

theorem lookup_dictSet (d : List (Nat × Val)) (reg g : Nat) (v : Val) :
    lookup (dictSet d reg v) g = if g = reg then some v else lookup d g := by
  unfold dictSet lookup
  split
  · next h =>
    induction d with
    | nil => simp at h
    | cons e d ih =>
      by_cases he : e.1 = reg
      · simp only [List.map_cons, he, if_true]
        by_cases hg : g = reg
        · subst hg; simp
        · have : ¬ reg = g := fun h => hg h.symm
          rw [if_neg hg, List.find?_cons, List.find?_cons]
          simp only [this, decide_false, he]
          have : ∀ d : List (Nat × Val), (d.map fun e => if e.1 = reg then (reg, v) else e).find?
              (fun e => decide (e.1 = g)) = d.find? (fun e => decide (e.1 = g)) := by
            intro d
            induction d with
            | nil => rfl
            | cons a d ih =>
              by_cases ha : a.1 = reg
              · simp [ha, ‹¬ reg = g›, ih]
              · simp only [List.map_cons, ha, if_false, List.find?_cons, ih]
          rw [this]
      · have hd : (d.any fun e => decide (e.1 = reg)) = true := by
          simpa [List.any_cons, he] using h
        have ih := ih hd
        simp only [List.map_cons, he, if_false, List.find?_cons]
        by_cases hg : e.1 = g
        · have : ¬ g = reg := by rw [← hg]; exact he
          simp [hg, this]
        · simp only [hg, decide_false]
          exact ih
  · next h =>
    simp only [List.any_eq_true, decide_eq_true_eq, not_exists, not_and] at h
    rw [List.find?_append]
    by_cases hg : g = reg
    · subst hg
      have : d.find? (fun e => decide (e.1 = g)) = none := by
        rw [List.find?_eq_none]; intro e he; simpa using h e he
      simp [this]
    · rw [if_neg hg]
      have : ¬ reg = g := fun h => hg h.symm
      simp [this]

theorem fold_cases (l : List (Nat × Res × Bytes)) (hl : ∀ x ∈ l, x.2.2.length = x.2.1.size)
    (d : List (Nat × Val)) :
    ((¬ ∃ x ∈ l, Unreadable x.1 x.2.1 x.2.2) ∧ ∃ d', fold l d = .ok d' ∧
      ∀ reg, match lastOf l reg with
        | none => lookup d' reg = lookup d reg
        | some (r, b) => ∃ v, lookup d' reg = some v ∧ Means reg r b v) ∨
    ((∃ x ∈ l, Unreadable x.1 x.2.1 x.2.2) ∧ ∃ e, fold l d = .error e) := by
  induction l generalizing d with
  | nil => left; exact ⟨by simp, d, rfl, by simp [lastOf]⟩
  | cons x l ih =>
    obtain ⟨g, r, b⟩ := x
    have hl' : ∀ x ∈ l, x.2.2.length = x.2.1.size := fun x hx => hl x (List.mem_cons_of_mem _ hx)
    rcases parseRegister_cases g r b (hl (g, r, b) (by simp)) with ⟨h1, v, h2, h3⟩ | ⟨h1, e, h2⟩
    · rcases ih hl' (dictSet d g v) with ⟨h4, d', h5, h6⟩ | ⟨⟨y, hy, hu⟩, e, h5⟩
      · left
        refine ⟨?_, d', by simp [fold, h2, h5], ?_⟩
        · rintro ⟨x, hx, hu⟩
          rcases List.mem_cons.mp hx with rfl | hx
          · exact h1 hu
          · exact h4 ⟨x, hx, hu⟩
        · intro reg
          have h7 := h6 reg
          unfold lastOf
          cases hlast : lastOf l reg with
          | some y => rw [hlast] at h7; exact h7
          | none =>
            rw [hlast] at h7
            simp only at h7 ⊢
            rw [lookup_dictSet] at h7
            by_cases hg : g = reg
            · subst hg
              rw [if_pos rfl] at h7
              simp only [if_true]
              exact ⟨v, h7, h3⟩
            · rw [if_neg (fun h => hg h.symm)] at h7
              simp only [hg, if_false]
              exact h7
      · right
        exact ⟨⟨y, List.mem_cons_of_mem _ hy, hu⟩, e, by simp [fold, h2, h5]⟩
    · right
      exact ⟨⟨_, List.mem_cons_self, h1⟩, e, by simp [fold, h2]⟩

theorem layout_sizes {data : Bytes} {l : List (Nat × Res × Bytes)} (h : Layout data l) :
    ∀ x ∈ l, x.2.2.length = x.2.1.size := by
  induction h with
  | nil => simp
  | cons gap value rest reg res items hv _ ih =>
    intro x hx
    rcases List.mem_cons.mp hx with rfl | hx
    · exact hv
    · exact ih x hx

/-! ## C10 -/

/-- C10: for arbitrary bytes, parsing ends; it raises only if an integer
register arrives as a non-finite float, and otherwise every register has the
documented meaning of its last occurrence, and no other register appears. -/
theorem C10_last_value (data : Bytes) :
    ∃ l r, parse data = some (.ok l) ∧ parseReply data = some r ∧
      ((∃ x ∈ l, Unreadable x.1 x.2.1 x.2.2) → ∃ e, r = .error e) ∧
      ((¬ ∃ x ∈ l, Unreadable x.1 x.2.1 x.2.2) → ∃ d, r = .ok d ∧
        ∀ reg, match lastOf l reg with
          | none => lookup d reg = none
          | some (res, b) => ∃ v, lookup d reg = some v ∧ Means reg res b v) := by
  obtain ⟨l, h1, h2⟩ := C09_reply_parse_total data
  refine ⟨l, fold l [], h1, parseReply_eq h1, ?_⟩
  rcases fold_cases l (layout_sizes h2) [] with ⟨h3, d, h4, h5⟩ | ⟨h3, e, h4⟩
  · exact ⟨fun h => absurd h h3, fun _ => ⟨d, h4, h5⟩⟩
  · exact ⟨fun _ => ⟨e, h4⟩, fun h => absurd h3 h⟩

theorem fold_append (l l' : List (Nat × Res × Bytes)) (d : List (Nat × Val)) :
    fold (l ++ l') d = match fold l d with | .error e => .error e | .ok d => fold l' d := by
  induction l generalizing d with
  | nil => rfl
  | cons x l ih =>
    obtain ⟨g, r, b⟩ := x
    simp only [List.cons_append, fold]
    cases parseRegister g r b with
    | error e => rfl
    | ok v => exact ih _

theorem fold_lookup_indep (l : List (Nat × Res × Bytes)) (d1 d2 a : List (Nat × Val))
    (h : fold l d1 = .ok a) :
    ∃ b, fold l d2 = .ok b ∧ ∀ reg,
      lookup a reg = (if lastOf l reg = none then lookup d1 reg else lookup b reg) ∧
      (lastOf l reg = none → lookup b reg = lookup d2 reg) := by
  induction l generalizing d1 d2 with
  | nil => simp only [fold, Except.ok.injEq] at h; subst h; exact ⟨d2, rfl, by simp [lastOf]⟩
  | cons x l ih =>
    obtain ⟨g, r, b⟩ := x
    simp only [fold] at h ⊢
    cases hp : parseRegister g r b with
    | error e => rw [hp] at h; simp at h
    | ok v =>
      rw [hp] at h
      obtain ⟨c, h1, h2⟩ := ih (dictSet d1 g v) (dictSet d2 g v) h
      refine ⟨c, h1, ?_⟩
      intro reg
      obtain ⟨h3, h4⟩ := h2 reg
      unfold lastOf
      cases hl : lastOf l reg with
      | some y => rw [hl] at h3; simp at h3 ⊢; exact h3
      | none =>
        rw [hl] at h3
        have h4 := h4 hl
        rw [lookup_dictSet] at h3 h4
        by_cases hg : g = reg
        · subst hg
          simp at h3 h4 ⊢
          rw [h3, h4]
        · have : ¬ reg = g := fun h => hg h.symm
          simp [this, hg] at h3 h4 ⊢
          exact ⟨h3, h4⟩

/-- C10: the concatenation of two well formed replies parses to the union,
the later one winning. -/
theorem C10_concatenation (segs1 segs2 : List Segment) (h1 : ∀ s ∈ segs1, s.Ok)
    (h2 : ∀ s ∈ segs2, s.Ok) (f1 f2 : Bytes) (hf1 : frameOf 0x20 segs1 [] = .ok f1)
    (hf2 : frameOf 0x20 segs2 [] = .ok f2) (d1 d2 : List (Nat × Val))
    (hd1 : parseReply f1 = some (.ok d1)) (hd2 : parseReply f2 = some (.ok d2)) :
    ∃ d, parseReply (f1 ++ f2) = some (.ok d) ∧
      ∀ reg, lookup d reg = (lookup d2 reg).or (lookup d1 reg) := by
  have frame_append : ∀ (s1 s2 : List Segment) (buf f : Bytes), (∀ s ∈ s2, s.Ok) →
      frameOf 0x20 s1 buf = .ok f → ∀ g, frameOf 0x20 s2 [] = .ok g →
      frameOf 0x20 (s1 ++ s2) buf = .ok (f ++ g) := by
    intro s1
    induction s1 with
    | nil =>
      intro s2 buf f hs2 hf g hg
      simp only [frameOf, Except.ok.injEq] at hf
      subst hf
      -- appending to a buffer does not change what is appended
      have gen : ∀ (segs : List Segment), (∀ s ∈ segs, s.Ok) → ∀ b0 : Bytes,
          ∃ body, ∀ b : Bytes, frameOf 0x20 segs b = .ok (b ++ body) := by
        intro segs
        induction segs with
        | nil => intro _ _; exact ⟨[], by simp [frameOf]⟩
        | cons s segs ih =>
          intro hok b0
          obtain ⟨k1, k2, k3⟩ := hok s (by simp)
          obtain ⟨body, hb⟩ := ih (fun s' h => hok s' (List.mem_cons_of_mem _ h)) b0
          refine ⟨List.replicate s.padding NOP ++ (enc 0x20 s.start none s.items ++ body), ?_⟩
          intro b
          obtain ⟨c, hc1, hc2, _⟩ := emit_ok (Or.inr (Or.inr rfl)) (b ++ List.replicate s.padding NOP)
            s.start s.items k2
          rw [frameOf, hc1]
          simp only
          rw [hb, hc2]; simp
      obtain ⟨body, hb⟩ := gen s2 hs2 []
      rw [hb] at hg
      simp only [List.nil_append, Except.ok.injEq] at hg
      subst hg
      exact hb buf
    | cons s s1 ih =>
      intro s2 buf f hs2 hf g hg
      simp only [List.cons_append, frameOf] at hf ⊢
      cases he : emit (buf ++ List.replicate s.padding NOP) 0x20 s.start s.items with
      | error e => rw [he] at hf; simp at hf
      | ok c => rw [he] at hf; exact ih s2 _ f hs2 hf g hg
  have hcat := frame_append segs1 segs2 [] f1 h2 hf1 f2 hf2
  have parse_frame : ∀ segs : List Segment, (∀ s ∈ segs, s.Ok) → ∀ f, frameOf 0x20 segs [] = .ok f →
      parse f = some (.ok (segs.flatMap fun s => wantedValues s.start s.items)) := by
    intro segs hs f hf
    obtain ⟨f', k1, k2⟩ := C08_padding_ignored segs hs 0
    rw [hf] at k1
    simp only [Except.ok.injEq] at k1
    subst k1
    simpa using k2
  have p1 := parse_frame segs1 h1 f1 hf1
  have p2 := parse_frame segs2 h2 f2 hf2
  have p12 := parse_frame (segs1 ++ segs2)
    (by intro s hs; rcases List.mem_append.mp hs with h | h; exact h1 s h; exact h2 s h) _ hcat
  rw [List.flatMap_append] at p12
  rw [parseReply_eq p1] at hd1
  rw [parseReply_eq p2] at hd2
  simp only [Option.some.injEq] at hd1 hd2
  obtain ⟨d, k1, k2⟩ := fold_lookup_indep _ [] d1 d2 hd2
  refine ⟨d, ?_, ?_⟩
  · rw [parseReply_eq p12, fold_append, hd1]
    simp only [k1]
  · intro reg
    obtain ⟨k3, k4⟩ := k2 reg
    cases hl : lastOf (segs2.flatMap fun s => wantedValues s.start s.items) reg with
    | none =>
      rw [hl] at k3
      simp only [if_true] at k3
      rw [k4 hl, k3]; rfl
    | some y =>
      rw [hl] at k3
      simp only [reduceCtorEq, if_false] at k3
      have hne : lookup d2 reg ≠ none := by
        obtain ⟨l2, hp2, hlay⟩ := C09_reply_parse_total f2
        rw [p2] at hp2
        simp only [Option.some.injEq, Except.ok.injEq] at hp2
        rw [← hp2] at hlay
        rcases fold_cases _ (layout_sizes hlay) [] with ⟨_, d', e1, e2⟩ | ⟨_, e, e1⟩
        · rw [hd2] at e1
          simp only [Except.ok.injEq] at e1
          subst e1
          have := e2 reg
          rw [hl] at this
          obtain ⟨v, hv, _⟩ := this
          rw [hv]; simp
        · rw [hd2] at e1; simp at e1
      rw [← k3]
      cases hv : lookup d2 reg with
      | none => exact absurd hv hne
      | some v => simp

/-- A reply with the mode twice and a position of 0.5 (INT16). -/
example : parseReply [0x21, 0x00, 0x0a, 0x25, 0x01, 0x88, 0x13, 0x21, 0x00, 0x0b] =
    some (.ok [(0, .int 11), (1, .float (.fin (1/2)))]) := by decide +kernel

/-- An integer register sent as NaN raises `ValueError`. -/
example : parseReply [0x2d, 0x00, 0x00, 0x00, 0xc0, 0x7f] = some (.error .valueError) := by
  decide +kernel

end Verif.Commands
