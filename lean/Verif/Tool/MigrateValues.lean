import Verif.Tool.MigrateOffset

/-!
# Configuration migration: values written by single steps

What the upgrade to 0x0105 makes of the encoder filter and of an auxiliary
encoder, and what the downgrade to 0x0105 makes of the poll rates (C27).
-/

namespace Verif.Tool

open Verif.Float

theorem downPoll_spec {aux : String} {dev : Nat} {d d1 : Items} (h : downPoll aux dev d = .ok d1) :
    ∃ v n, get d (kDevice aux dev "poll_rate_us") = some v ∧ toInt v = .ok n ∧
      get d1 (kDevice aux dev "poll_ms") = some (.int (max 1 (n / 1000))) ∧
      ∀ k, k ≠ kDevice aux dev "poll_ms" → k ≠ kDevice aux dev "poll_rate_us" → get d1 k = get d k := by
  unfold downPoll at h
  obtain ⟨⟨v, e1⟩, h1, h⟩ := bind_ok h
  obtain ⟨hv, rfl⟩ := pop_ok h1
  obtain ⟨n, hn, h⟩ := bind_ok h
  cases h
  refine ⟨v, n, hv, hn, ?_, ?_⟩
  · rw [get_set, if_pos rfl]
  · intro k h2 h3
    rw [get_set, if_neg h2, get_drop, if_neg h3]

/-- Folding over devices with different names. -/
theorem downPolls_spec (xs : List (String × Nat)) (hx : xs.Nodup) (d d1 : Items)
    (h : xs.foldlM (fun d x => downPoll x.1 x.2 d) d = .ok d1) :
    (∀ x ∈ xs, ∃ v n, get d (kDevice x.1 x.2 "poll_rate_us") = some v ∧ toInt v = .ok n ∧
      get d1 (kDevice x.1 x.2 "poll_ms") = some (.int (max 1 (n / 1000)))) ∧
    (∀ y, y ∉ xs → ∀ s, get d1 (kDevice y.1 y.2 s) = get d (kDevice y.1 y.2 s)) := by
  induction xs generalizing d with
  | nil => cases h; exact ⟨by simp, fun _ _ _ => rfl⟩
  | cons x xs ih =>
    rw [List.foldlM_cons] at h
    obtain ⟨e, h1, h⟩ := bind_ok h
    obtain ⟨hn, hx⟩ := List.nodup_cons.mp hx
    obtain ⟨a1, a2⟩ := ih hx e h
    obtain ⟨v, n, b1, b2, b3, b4⟩ := downPoll_spec h1
    have other : ∀ y : String × Nat, y ≠ x → ∀ s, get e (kDevice y.1 y.2 s) = get d (kDevice y.1 y.2 s) := by
      intro y hy s
      have hne : ∀ t, kDevice y.1 y.2 s ≠ kDevice x.1 x.2 t := by
        intro t he
        simp only [kDevice, List.cons.injEq, Comp.n.injEq, Comp.i.injEq] at he
        exact hy (Prod.ext he.1 (by simpa using he.2.2.2.1))
      exact b4 _ (hne _) (hne _)
    constructor
    · intro y hy
      rcases List.mem_cons.mp hy with rfl | hy
      · exact ⟨v, n, b1, b2, by rw [a2 _ hn, b3]⟩
      · obtain ⟨v', n', c1, c2, c3⟩ := a1 y hy
        have : y ≠ x := fun e => hn (e ▸ hy)
        exact ⟨v', n', by rw [← other y this, c1], c2, c3⟩
    · intro y hy s
      rw [List.mem_cons, not_or] at hy
      rw [a2 y hy.2, other y hy.1]

/-- C27: a downgrade below 0x0106 gives every auxiliary device a poll interval
of at least one millisecond, and from one millisecond on the largest whole
number of milliseconds that is not longer than the configured interval. -/
theorem C27_poll_values (A : Arith) (family : Int) (d d1 : Items)
    (h : migrate A 0x0106 0x0105 family d = .ok d1) (x : String × Nat) (hx : x ∈ devices) :
    ∃ v n m, get d (kDevice x.1 x.2 "poll_rate_us") = some v ∧ toInt v = .ok n ∧
      get d1 (kDevice x.1 x.2 "poll_ms") = some (.int m) ∧ 1 ≤ m ∧
      (1000 ≤ n → m * 1000 ≤ n ∧ n < (m + 1) * 1000) ∧ (n < 1000 → m = 1) := by
  rw [migrate_down0106] at h
  obtain ⟨v, n, h1, h2, h3⟩ := (downPolls_spec devices (by decide) d d1 h).1 x hx
  exact ⟨v, n, _, h1, h2, h3, by omega, by omega, by omega⟩

/-! ## The encoder filter -/

section
variable (A : Arith) (d : Items)

theorem keeps_upAbs_filter (n : String) : Keeps (kEncFilter n) (upAbs A d) d := by
  unfold upAbs auxDevice auxSource
  keeps
  all_goals first
    | (refine get_filter_ne (by simp [kEncFilter, isAbsPort]) ?_; keeps)
    | simp [kEncFilter, kI2c, kDevice, kPin, kSource, kOutput, kRezero]

theorem keeps_upEncoder_filter (n : String) : Keeps (kEncFilter n) (upEncoder d) d := by
  unfold upEncoder
  keeps
  all_goals simp [kEncFilter, kSpiMode, kPin, kEncoderMode]

theorem keeps_upOffset_filter (n : String) : Keeps (kEncFilter n) (upOffset A d) d := by
  unfold upOffset
  keeps
  all_goals simp [kEncFilter, kPositionOffset, kOutput, kInvert, kSource, kUnwrappedScale, kRatio]

/-- What the filter step writes. -/
theorem upFilter_spec (p : ℚ) (d d1 : Items) (h : upFilter A p d = .ok d1) (v : Val)
    (hv : get d (kEncFilter "kp") = some v) :
    ∃ kp w en, toFloat A v = .ok kp ∧ get d (kEncFilter "enabled") = some w ∧ toInt w = .ok en ∧
      (en = 0 → get d1 (kSource 0 "pll_filter_hz") = some (.int 0)) ∧
      (en ≠ 0 → ∃ a b, fdiv A kp (.fin 2) = .ok a ∧ fdiv A a (.fin p) = .ok b ∧
        get d1 (kSource 0 "pll_filter_hz") = some (.flt b)) := by
  unfold upFilter at h
  dsimp only at h
  set e0 := if has d kVelFilter then drop d kVelFilter else d with he0
  have g0 : ∀ n, get e0 (kEncFilter n) = get d (kEncFilter n) := by
    intro n
    rw [he0]
    split
    · rw [get_drop, if_neg (by simp [kEncFilter, kVelFilter])]
    · rfl
  have hh : has e0 (kEncFilter "kp") = true := by rw [has, g0, hv]; rfl
  rw [if_pos hh] at h
  obtain ⟨⟨v1, e1⟩, h1, h⟩ := bind_ok h
  obtain ⟨hv1, rfl⟩ := pop_ok h1
  rw [g0, hv] at hv1
  cases hv1
  obtain ⟨kp, hkp, h⟩ := bind_ok h
  obtain ⟨⟨v2, e2⟩, h2, h⟩ := bind_ok h
  obtain ⟨hv2, rfl⟩ := pop_ok h2
  obtain ⟨_, _, h⟩ := bind_ok h
  obtain ⟨⟨v3, e3⟩, h3, h⟩ := bind_ok h
  obtain ⟨hv3, rfl⟩ := pop_ok h3
  dsimp only at hv3
  rw [get_drop, if_neg (by decide), get_drop, if_neg (by decide), g0] at hv3
  obtain ⟨en, hen, h⟩ := bind_ok h
  have fin : ∀ hz e5, (do
      let __x ← pop (Tool.set (drop (drop (drop e0 (kEncFilter "kp")) (kEncFilter "ki")) (kEncFilter "enabled"))
        (kSource 0 "pll_filter_hz") hz) (kEncFilter "debug_override")
      let o ← toInt __x.1
      pure (if o ≥ 0 then Tool.set __x.2 (kSource 0 "debug_override") (Val.int o) else __x.2)) = Except.ok e5 →
      get e5 (kSource 0 "pll_filter_hz") = some hz := by
    intro hz e5 h
    obtain ⟨⟨v4, e4⟩, h4, h⟩ := bind_ok h
    obtain ⟨hv4, rfl⟩ := pop_ok h4
    obtain ⟨o, ho, h⟩ := bind_ok h
    injection h with h
    rw [← h]
    split
    · rw [get_set, if_neg (by decide), get_drop, if_neg (by decide), get_set, if_pos rfl]
    · rw [get_drop, if_neg (by decide), get_set, if_pos rfl]
  refine ⟨kp, v3, en, hkp, hv3, hen, ?_, ?_⟩
  · intro h0
    rw [if_pos h0] at h
    exact fin _ _ h
  · intro h0
    rw [if_neg h0] at h
    obtain ⟨a, ha, h⟩ := bind_ok h
    cases hb : fdiv A a (.fin p) with
    | error e => rw [hb] at h; cases h
    | ok b =>
      rw [hb] at h
      exact ⟨a, b, ha, hb, fin _ _ h⟩

end

/-- C27: the upgrade to 0x0105 keeps the bandwidth of the encoder filter: the
new PLL frequency times `2 * 2π` is the old proportional gain (exact
arithmetic), and a disabled filter has frequency zero. -/
theorem C27_filter_values (family : Int) (d d1 : Items)
    (h : migrate exact 0x0104 0x0105 family d = .ok d1) (kp : ℚ) (en : Int)
    (hk : Holds exact d [.n "servo", .n "encoder_filter", .n "kp"] (.fin kp))
    (he : get d [.n "servo", .n "encoder_filter", .n "enabled"] = some (.int en)) :
    (en ≠ 0 → ∃ f : ℚ, get d1 [.n "motor_position", .n "sources", .i 0, .n "pll_filter_hz"] =
      some (.flt (.fin f)) ∧ f * 2 * twoPi = kp) ∧
    (en = 0 → get d1 [.n "motor_position", .n "sources", .i 0, .n "pll_filter_hz"] =
      some (.int 0)) := by
  rw [migrate_up0105] at h
  unfold up0105 at h
  obtain ⟨e1, h1, h⟩ := bind_ok h
  obtain ⟨e2, h2, h⟩ := bind_ok h
  obtain ⟨e3, h3, h⟩ := bind_ok h
  obtain ⟨e4, h4, h⟩ := bind_ok h
  have old (n : String) : get e3 (kEncFilter n) = get d (kEncFilter n) := by
    rw [keeps_upOffset_filter exact e2 n e3 h3, keeps_upEncoder_filter e1 n e2 h2,
      keeps_upAbs_filter exact d n e1 h1]
  have new : get d1 (kSource 0 "pll_filter_hz") = get e4 (kSource 0 "pll_filter_hz") := by
    have : Keeps (kSource 0 "pll_filter_hz") (upPwmRate e4) e4 := by
      unfold upPwmRate
      split
      · keeps; decide
      · keeps
    exact this d1 h
  obtain ⟨v, hv, hv'⟩ := hk
  change get d (kEncFilter "kp") = some v at hv
  change get d (kEncFilter "enabled") = _ at he
  obtain ⟨k, w, en', a1, a2, a3, a4, a5⟩ := upFilter_spec exact twoPi e3 e4 h4 v (by rw [old, hv])
  rw [hv'] at a1
  cases a1
  rw [old, he] at a2
  cases a2
  simp only [toInt] at a3
  cases a3
  change (en ≠ 0 → ∃ f : ℚ, get d1 (kSource 0 "pll_filter_hz") = _ ∧ _) ∧
    (en = 0 → get d1 (kSource 0 "pll_filter_hz") = _)
  rw [new]
  refine ⟨?_, a4⟩
  intro h0
  obtain ⟨a, b, b1, b2, b3⟩ := a5 h0
  rw [fdiv_fin exact _ _ (by norm_num)] at b1
  cases b1
  have hp : twoPi ≠ 0 := by norm_num [twoPi]
  change fdiv exact (.fin (kp / 2)) _ = _ at b2
  rw [fdiv_fin exact _ _ hp] at b2
  cases b2
  refine ⟨kp / 2 / twoPi, b3, ?_⟩
  field_simp

/-- A concrete configuration for `C27_filter_values`. -/
example : (match migrate exact 0x0104 0x0105 0 [(kPositionOffset, .int 0), (kUnwrappedScale, .int 1),
    (kEncFilter "kp", .flt (.fin 1000)), (kEncFilter "ki", .flt (.fin 5)),
    (kEncFilter "enabled", .int 1), (kEncFilter "debug_override", .int (-1))] with
    | .ok d1 => get d1 (kSource 0 "pll_filter_hz")
    | .error _ => none) = some (.flt (.fin (500 / twoPi))) := by decide +kernel

/-! ## The auxiliary encoder -/

/-- The counts per turn of an auxiliary encoder: 65536 for the AS5048, 16384 for
the AS5600. -/
def auxCpr (mode : Int) : Int := if mode = 1 then 65536 else 16384

/-- The settings of the new source, not touched by the later steps. -/
def isAux : Key → Prop := fun k =>
  (∃ n, k = kSource 1 n) ∨ k = kOutput "reference_source"

theorem keeps_upEncoder_aux (d : Items) (k : Key) (hk : isAux k) : Keeps k (upEncoder d) d := by
  unfold upEncoder
  rcases hk with ⟨n, rfl⟩ | rfl
  all_goals
    keeps
    all_goals simp [kSource, kOutput, kSpiMode, kPin, kEncoderMode]

theorem keeps_upOffset_aux (A : Arith) (d : Items) (k : Key) (hk : isAux k) : Keeps k (upOffset A d) d := by
  unfold upOffset
  rcases hk with ⟨n, rfl⟩ | rfl
  all_goals
    keeps
    all_goals simp [kSource, kOutput, kPositionOffset, kInvert, kUnwrappedScale, kRatio]

theorem keeps_upFilter_aux (A : Arith) (p : ℚ) (d : Items) (k : Key) (hk : isAux k) :
    Keeps k (upFilter A p d) d := by
  unfold upFilter
  rcases hk with ⟨n, rfl⟩ | rfl
  all_goals
    keeps
    all_goals simp [kSource, kOutput, kEncFilter, kVelFilter]

theorem keeps_upPwmRate_aux (d : Items) (k : Key) (hk : isAux k) : Keeps k (upPwmRate d) d := by
  unfold upPwmRate
  have : k ≠ kPwmRate := by
    rcases hk with ⟨n, rfl⟩ | rfl <;> simp [kSource, kOutput, kPwmRate]
  split <;> keeps

theorem auxDevice_keeps (mode : Int) (d : Items) (n : String) :
    Keeps (kAbs n) (auxDevice mode d) d ∧ Keeps kRezero (auxDevice mode d) d := by
  unfold auxDevice
  constructor
  · keeps
    all_goals simp [kAbs, kDevice, kPin]
  · keeps
    all_goals simp [kRezero, kDevice, kPin]

/-- What the step for the second source writes. -/
theorem auxSource_spec (mode rz : Int) (e f : Items) (o sv : Val) (scale : ℚ)
    (ho : get e (kAbs "position_offset") = some o) (hs : get e (kAbs "position_scale") = some sv)
    (hs' : toFloat exact sv = .ok (.fin scale)) (hrz : rz ≠ 0)
    (hf : auxSource exact mode rz e = .ok f) :
    get f (kSource 1 "type") = some (.int 7) ∧
    get f (kSource 1 "aux_number") = some (.int 2) ∧
    get f (kSource 1 "offset") = some o ∧
    get f (kSource 1 "reference") = some (.int 1) ∧
    get f (kSource 1 "cpr") = some (.int (auxCpr mode)) ∧
    (scale = -1 → get f (kSource 1 "sign") = some (.int (-1))) ∧
    get f (kOutput "reference_source") = some (.int 1) := by
  unfold auxSource at hf
  rw [if_pos hrz] at hf
  dsimp only at hf
  obtain ⟨v1, n1, hf⟩ := bind_ok hf
  have n1 := need_ok n1
  rw [get_set, if_neg (by decide), get_set, if_neg (by decide), get_set, if_neg (by decide), ho] at n1
  cases n1
  obtain ⟨v2, n2, hf⟩ := bind_ok hf
  have n2 := need_ok n2
  rw [get_set, if_neg (by decide), get_set, if_neg (by decide), get_set, if_neg (by decide),
    get_set, if_neg (by decide), get_set, if_neg (by decide), get_set, if_neg (by decide),
    get_set, if_neg (by decide), hs] at n2
  cases n2
  obtain ⟨x, hx, hf⟩ := bind_ok hf
  rw [hs'] at hx
  cases hx
  rw [feq_fin] at hf
  injection hf with hf
  refine ⟨?_, ?_, ?_, ?_, ?_, ?_, ?_⟩
  · rw [← hf, get_set, if_neg (by decide)]
    split <;> simp [get_set, kSource]
  · rw [← hf, get_set, if_neg (by decide)]
    split <;> simp [get_set, kSource]
  · rw [← hf, get_set, if_neg (by decide)]
    split <;> simp [get_set, kSource]
  · rw [← hf, get_set, if_neg (by decide)]
    split <;> simp [get_set, kSource]
  · rw [← hf, get_set, if_neg (by decide)]
    unfold auxCpr
    by_cases hm : mode = 1
    · rw [if_pos hm, if_pos hm]
      split <;> simp [get_set, kSource]
    · rw [if_neg hm, if_neg hm]
      split <;> simp [get_set, kSource]
  · intro hsc
    rw [← hf, get_set, if_neg (by decide), if_pos (by simp [hsc]), get_set, if_pos rfl]
  · rw [← hf, get_set, if_pos rfl]

/-- C27: an auxiliary encoder that is used as the reference of the output
becomes the second source: an I2C encoder on port 2 that refers to the output,
with the counts per turn of its type, the old offset and the old direction. -/
theorem C27_aux_encoder (family : Int) (d d1 : Items)
    (h : migrate exact 0x0104 0x0105 family d = .ok d1) (i2c o : Val) (mode rz : Int) (scale : ℚ)
    (hm : get d [.n "abs_port", .n "i2c_mode"] = some i2c)
    (hmode : get d [.n "abs_port", .n "mode"] = some (.int mode))
    (ho : get d [.n "abs_port", .n "position_offset"] = some o)
    (hs : Holds exact d [.n "abs_port", .n "position_scale"] (.fin scale))
    (hr : get d [.n "servo", .n "rezero_from_abs"] = some (.int rz)) (hrz : rz ≠ 0) :
    get d1 [.n "motor_position", .n "sources", .i 1, .n "type"] = some (.int 7) ∧
    get d1 [.n "motor_position", .n "sources", .i 1, .n "aux_number"] = some (.int 2) ∧
    get d1 [.n "motor_position", .n "sources", .i 1, .n "offset"] = some o ∧
    get d1 [.n "motor_position", .n "sources", .i 1, .n "reference"] = some (.int 1) ∧
    get d1 [.n "motor_position", .n "sources", .i 1, .n "cpr"] = some (.int (auxCpr mode)) ∧
    (scale = -1 → get d1 [.n "motor_position", .n "sources", .i 1, .n "sign"] = some (.int (-1))) ∧
    get d1 [.n "motor_position", .n "output", .n "reference_source"] = some (.int 1) := by
  obtain ⟨sv, hs, hs'⟩ := hs
  change get d (kAbs "i2c_mode") = _ at hm
  change get d (kAbs "mode") = _ at hmode
  change get d (kAbs "position_offset") = _ at ho
  change get d (kAbs "position_scale") = _ at hs
  change get d kRezero = _ at hr
  rw [migrate_up0105] at h
  unfold up0105 at h
  obtain ⟨e1, h1, h⟩ := bind_ok h
  obtain ⟨e2, h2, h⟩ := bind_ok h
  obtain ⟨e3, h3, h⟩ := bind_ok h
  obtain ⟨e4, h4, h⟩ := bind_ok h
  have late (k : Key) (hk : isAux k) : get d1 k = get e1 k := by
    rw [keeps_upPwmRate_aux e4 k hk d1 h, keeps_upFilter_aux exact _ e3 k hk e4 h4,
      keeps_upOffset_aux exact e2 k hk e3 h3, keeps_upEncoder_aux e1 k hk e2 h2]
  show get d1 (kSource 1 "type") = _ ∧ get d1 (kSource 1 "aux_number") = _ ∧
    get d1 (kSource 1 "offset") = _ ∧ get d1 (kSource 1 "reference") = _ ∧
    get d1 (kSource 1 "cpr") = _ ∧ (_ → get d1 (kSource 1 "sign") = _) ∧
    get d1 (kOutput "reference_source") = _
  rw [late _ (Or.inl ⟨_, rfl⟩), late _ (Or.inl ⟨_, rfl⟩), late _ (Or.inl ⟨_, rfl⟩),
    late _ (Or.inl ⟨_, rfl⟩), late _ (Or.inl ⟨_, rfl⟩), late _ (Or.inl ⟨_, rfl⟩), late _ (Or.inr rfl)]
  unfold upAbs at h1
  rw [if_pos (by rw [has, hm]; rfl)] at h1
  obtain ⟨v1, n1, h1⟩ := bind_ok h1
  obtain ⟨v2, n2, h1⟩ := bind_ok h1
  obtain ⟨v3, n3, h1⟩ := bind_ok h1
  have n3 := need_ok n3
  rw [get_set, if_neg (by decide), get_set, if_neg (by decide), hmode] at n3
  cases n3
  obtain ⟨m, hm', h1⟩ := bind_ok h1
  simp only [toInt] at hm'
  cases hm'
  obtain ⟨e, hE, h1⟩ := bind_ok h1
  obtain ⟨r, hR, h1⟩ := bind_ok h1
  obtain ⟨f, hf, h1⟩ := bind_ok h1
  obtain ⟨⟨v, g⟩, hp, h1⟩ := bind_ok h1
  obtain ⟨_, rfl⟩ := pop_ok hp
  cases h1
  have pre (n : String) : get e (kAbs n) = get d (kAbs n) := by
    rw [(auxDevice_keeps mode _ n).1 e hE, get_set, if_neg (by simp [kAbs, kI2c]), get_set,
      if_neg (by simp [kAbs, kI2c])]
  have preR : get e kRezero = get d kRezero := by
    rw [(auxDevice_keeps mode _ "").2 e hE, get_set, if_neg (by decide), get_set, if_neg (by decide)]
  simp only [intOr, preR, hr, toInt] at hR
  cases hR
  have out (k : Key) (hk : isAux k) : get (drop (f.filter fun e => !isAbsPort e.1) kRezero) k = get f k := by
    have h1 : k ≠ kRezero := by
      rcases hk with ⟨n, rfl⟩ | rfl <;> simp [kSource, kOutput, kRezero]
    have h2 : isAbsPort k = false := by
      rcases hk with ⟨n, rfl⟩ | rfl <;> simp [kSource, kOutput, isAbsPort]
    rw [get_drop, if_neg h1, get_filter f (fun k => !isAbsPort k), if_pos (by simp [h2])]
  rw [out _ (Or.inl ⟨_, rfl⟩), out _ (Or.inl ⟨_, rfl⟩), out _ (Or.inl ⟨_, rfl⟩),
    out _ (Or.inl ⟨_, rfl⟩), out _ (Or.inl ⟨_, rfl⟩), out _ (Or.inl ⟨_, rfl⟩), out _ (Or.inr rfl)]
  exact auxSource_spec mode rz e f o sv scale (by rw [pre, ho]) (by rw [pre, hs]) hs' hrz hf

/-- A concrete configuration for `C27_aux_encoder`. -/
example : (match migrate exact 0x0104 0x0105 0 [(kPositionOffset, .int 0), (kUnwrappedScale, .int 1),
    (kAbs "i2c_hz", .int 400000), (kAbs "i2c_mode", .int 1), (kAbs "mode", .int 2),
    (kAbs "encoder_i2c_address", .int 54), (kAbs "encoder_poll_ms", .int 10),
    (kAbs "position_offset", .int 5), (kAbs "position_scale", .flt (.fin (-1))),
    (kRezero, .int 1)] with
    | .ok d1 => (get d1 (kSource 1 "cpr"), get d1 (kSource 1 "sign"))
    | .error _ => (none, none)) = (some (.int 16384), some (.int (-1))) := by decide +kernel

end Verif.Tool
