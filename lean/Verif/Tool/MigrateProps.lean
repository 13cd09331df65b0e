import Verif.Tool.Migrate
import Mathlib.Tactic.Linarith
import Mathlib.Tactic.FieldSimp

/-!
# Configuration migration: settings that are not touched

Dictionary lemmas, and the parts of C27 that hold for every configuration:
identity when the version does not change, and a frame property.
-/

namespace Verif.Tool

open Verif.Float

/-! ## Dictionaries -/

theorem get_nil (k : Key) : get [] k = none := rfl

theorem get_cons (e : Key × Val) (d : Items) (k : Key) :
    get (e :: d) k = if k = e.1 then some e.2 else get d k := by
  obtain ⟨a, v⟩ := e
  unfold get
  rw [List.lookup_cons]
  by_cases h : k = a
  · subst h; simp
  · have : (k == a) = false := by simpa using h
    simp [h, this]

theorem get_append (d e : Items) (k : Key) : get (d ++ e) k = (get d k).or (get e k) := by
  induction d with
  | nil => simp [get_nil]
  | cons a d ih => rw [List.cons_append, get_cons, get_cons, ih]; split <;> simp

theorem get_map (d : Items) (k k' : Key) (v : Val) :
    get (d.map fun e => if e.1 = k then (k, v) else e) k' =
      if k' = k then (get d k).map fun _ => v else get d k' := by
  induction d with
  | nil => simp [get_nil]
  | cons a d ih =>
    rw [List.map_cons, get_cons, ih, get_cons, get_cons]
    by_cases h1 : a.1 = k
    · subst h1
      by_cases h2 : k' = a.1 <;> simp [h2]
    · rw [if_neg h1]
      by_cases h2 : k' = k
      · subst h2; simp [Ne.symm h1]
      · simp [h2]

theorem get_set (d : Items) (k k' : Key) (v : Val) :
    get (set d k v) k' = if k' = k then some v else get d k' := by
  unfold set
  cases h : get d k with
  | none =>
    simp only [Option.isSome_none, Bool.false_eq_true, if_false]
    rw [get_append, get_cons, get_nil]
    by_cases hk : k' = k
    · subst hk; simp [h]
    · simp [hk]
  | some w =>
    simp only [Option.isSome_some, if_true]
    rw [get_map, h]; simp

theorem get_filter (d : Items) (p : Key → Bool) (k : Key) :
    get (d.filter fun e => p e.1) k = if p k then get d k else none := by
  induction d with
  | nil => simp [get_nil]
  | cons a d ih =>
    rw [List.filter_cons]
    split
    · next h =>
      rw [get_cons, get_cons, ih]
      by_cases hk : k = a.1
      · subst hk; simp [h]
      · simp [hk]
    · next h =>
      rw [ih, get_cons]
      by_cases hk : k = a.1
      · subst hk; simp [h]
      · simp [hk]

theorem get_drop (d : Items) (k k' : Key) :
    get (drop d k) k' = if k' = k then none else get d k' := by
  unfold drop
  rw [get_filter d (fun a => decide (a ≠ k))]
  by_cases h : k' = k <;> simp [h]

/-! ## Identity -/

/-- C27: nothing changes when the version does not change. -/
theorem C27_identity (A : Arith) (v : Nat) (family : Int) (d : Items) :
    migrate A v v family d = .ok d := by
  have h (a b : Nat) (hab : a < b) (f : Items → M Items) (d : Items) :
      onlyIf (decide (v ≤ a ∧ v ≥ b)) f d = pure d := by
    unfold onlyIf; rw [if_neg (by simp; omega)]
  have h' (a b : Nat) (hab : a < b) (f : Items → M Items) (d : Items) :
      onlyIf (decide (v ≥ b ∧ v ≤ a)) f d = pure d := by
    unfold onlyIf; rw [if_neg (by simp; omega)]
  have h2 (f : Items → M Items) (d : Items) :
      onlyIf (decide (v ≤ 0x0100 ∧ v = 0x0101)) f d = pure d := by
    unfold onlyIf; rw [if_neg (by simp; omega)]
  have h3 (f : Items → M Items) (d : Items) :
      onlyIf (decide (v = 0x0101 ∧ v ≤ 0x0100)) f d = pure d := by
    unfold onlyIf; rw [if_neg (by simp; omega)]
  unfold migrate
  simp only [h 0x0109 0x010a (by decide), h 0x0108 0x0109 (by decide), h 0x0107 0x0108 (by decide),
    h 0x0106 0x0107 (by decide), h 0x0105 0x0106 (by decide), h 0x0104 0x0105 (by decide),
    h 0x0103 0x0104 (by decide), h 0x0102 0x0103 (by decide), h2, h3,
    h' 0x0109 0x010a (by decide), h' 0x0108 0x0109 (by decide), h' 0x0107 0x0108 (by decide),
    h' 0x0106 0x0107 (by decide), h' 0x0105 0x0106 (by decide), h' 0x0104 0x0105 (by decide),
    h' 0x0103 0x0104 (by decide), h' 0x0102 0x0103 (by decide), pure_bind]
  rfl

/-! ## Settings that a version change is about -/

/-- The settings that appeared, vanished or changed with version 0x0105. -/
def related0105 (k : Key) : Bool :=
  (k.head?.any fun c => c ∈ [.n "motor_position", .n "aux1", .n "aux2", .n "icpz1", .n "icpz2",
    .n "abs_port"]) ||
  k.take 2 == [.n "servo", .n "encoder_filter"] ||
  k ∈ [[.n "motor", .n "invert"], [.n "motor", .n "position_offset"],
    [.n "motor", .n "unwrapped_position_scale"], [.n "servo", .n "rezero_from_abs"],
    [.n "servo", .n "velocity_filter_length"], [.n "servo", .n "pwm_rate_hz"],
    [.n "encoder", .n "mode"]] ||
  (match k with
    | .n a :: .n b :: _ =>
      (a == "motor" && "cogging_dq".toList.isPrefixOf b.toList) ||
      (a == "servo" && "current_feedforward".toList.isPrefixOf b.toList)
    | _ => false)

/-- The settings whose meaning or existence changed with the given version
(the release notes of the configuration, one entry per version). -/
def related : Nat → Key → Bool
  | 0x010a, k => k ∈ [[.n "motor", .n "Kv"], [.n "motor", .n "v_per_hz"],
      [.n "servo", .n "max_power_W"]]
  | 0x0109, [.n "motor", .n "offset", .i _] => true
  | 0x0109, [.n "motor_position", .n "sources", .i _, .n "compensation_table", .i _] => true
  | 0x0109, [.n "motor_position", .n "sources", .i _, .n name] => name == "compensation_scale"
  | 0x0109, k => k ∈ [[.n "servo", .n "enable_motor_temperature"],
      [.n "servo", .n "motor_thermistor_ohm"], [.n "aux1", .n "pwm_period_us"],
      [.n "aux2", .n "pwm_period_us"]]
  | 0x0108, k => k ∈ [[.n "servo", .n "bemf_feedforward"]]
  | 0x0107, k => k ∈ [[.n "motor_position", .n "output", .n "sign"]]
  | 0x0106, [.n aux, .n "i2c", .n "devices", .i _, .n name] =>
      (aux == "aux1" || aux == "aux2") && (name == "poll_ms" || name == "poll_rate_us")
  | 0x0105, k => related0105 k
  | 0x0104, k => k ∈ [[.n "servo", .n "pwm_comp_mag"], [.n "servo", .n "pwm_comp_off"],
      [.n "servo", .n "pwm_scale"]]
  | 0x0103, k => k ∈ [[.n "servo", .n "pwm_comp_mag"], [.n "servo", .n "pwm_comp_off"],
      [.n "servo", .n "pwm_scale"], [.n "motor", .n "poles"]]
  | 0x0101, k => k == [.n "servo", .n "feedforward_scale"]
  | _, _ => false

/-- The version `b` lies between the two versions. -/
def Crossed (old new b : Nat) : Prop := (old < b ∧ b ≤ new) ∨ (new < b ∧ b ≤ old)

/-- Every result keeps the settings of `P` as they are in `d`. -/
def Keeps (k : Key) (m : M Items) (d : Items) : Prop :=
  ∀ d', m = .ok d' → get d' k = get d k

variable {k : Key} {d : Items}

theorem Keeps.pure {e : Items} (h : get e k = get d k) : Keeps k (pure e) d := by
  intro d' hd
  cases hd
  exact h

theorem Keeps.ok {e : Items} (h : get e k = get d k) : Keeps k (.ok e) d := Keeps.pure h

theorem Keeps.error (e : MErr) : Keeps k (.error e) d := by
  intro d' hd; cases hd

/-- A step whose value is not a configuration. -/
theorem Keeps.bind {α : Type} {m : M α} {f : α → M Items} (h : ∀ a, Keeps k (f a) d) :
    Keeps k (m >>= f) d := by
  intro d' hd
  cases m with
  | error e => cases hd
  | ok a => exact h a d' hd

theorem Keeps.seq {m : M Items} {f : Items → M Items} (h1 : Keeps k m d)
    (h2 : ∀ e, get e k = get d k → Keeps k (f e) d) : Keeps k (m >>= f) d := by
  intro d' hd
  cases m with
  | error e => cases hd
  | ok a => exact h2 a (h1 a rfl) d' hd

theorem Keeps.pop {key : Key} {f : Val × Items → M Items} {e : Items} (hk : k ≠ key)
    (he : get e k = get d k) (h : ∀ v e', get e' k = get d k → Keeps k (f (v, e')) d) :
    Keeps k (Tool.pop e key >>= f) d := by
  unfold Tool.pop
  cases hn : need e key with
  | error x => intro d' hd; cases hd
  | ok v =>
    refine h v _ ?_
    rw [get_drop, if_neg hk, he]

theorem Keeps.ite {c : Prop} [Decidable c] {a b : M Items} (h1 : c → Keeps k a d)
    (h2 : ¬ c → Keeps k b d) : Keeps k (if c then a else b) d := by
  split
  · exact h1 ‹_›
  · exact h2 ‹_›

theorem Keeps.trans {m : M Items} {e : Items} (h : Keeps k m e) (he : get e k = get d k) :
    Keeps k m d := fun d' hd => by rw [h d' hd, he]

theorem get_set_ne {e : Items} {key : Key} {v : Val} (hk : k ≠ key) (he : get e k = get d k) :
    get (set e key v) k = get d k := by rw [get_set, if_neg hk, he]

theorem get_drop_ne {e : Items} {key : Key} (hk : k ≠ key) (he : get e k = get d k) :
    get (drop e key) k = get d k := by rw [get_drop, if_neg hk, he]

theorem get_ite {c : Prop} [Decidable c] {a b : Items} (h1 : get a k = get d k)
    (h2 : get b k = get d k) : get (if c then a else b) k = get d k := by split <;> assumption

theorem get_foldl {α : Type} (f : Items → α → Items) (l : List α) (e : Items)
    (h : ∀ x ∈ l, ∀ e, get (f e x) k = get e k) (he : get e k = get d k) :
    get (l.foldl f e) k = get d k := by
  induction l generalizing e with
  | nil => exact he
  | cons x l ih =>
    refine ih _ (fun y hy => h y (by simp [hy])) ?_
    rw [h x (by simp), he]

theorem keeps_onlyIf {c : Bool} {f : Items → M Items} {e : Items} (he : get e k = get d k)
    (h : c = true → Keeps k (f e) e) : Keeps k (onlyIf c f e) d := by
  unfold onlyIf
  split
  · next hc => exact (h hc).trans he
  · exact Keeps.pure he

/-- Solves the goals left by the frame rules. -/
macro "keeps" : tactic => `(tactic| repeat' first
  | with_reducible exact Keeps.error _
  | with_reducible refine Keeps.ite (fun _ => ?_) (fun _ => ?_)
  | with_reducible refine Keeps.pop ?_ ?_ (fun _ _ _ => ?_)
  | with_reducible refine Keeps.seq ?_ (fun _ _ => ?_)
  | with_reducible refine Keeps.bind (fun _ => ?_)
  | with_reducible refine Keeps.pure ?_
  | with_reducible refine Keeps.ok ?_
  | with_reducible rfl
  | with_reducible assumption
  | with_reducible refine get_set_ne ?_ ?_
  | with_reducible refine get_drop_ne ?_ ?_
  | with_reducible refine get_ite ?_ ?_
  | dsimp only)

variable (A : Arith) (family : Int)

/-- A key that is not related differs from a related one. -/
theorem ne_of_related {b : Nat} {key : Key} (h : related b k = false) (hk : related b key = true) :
    k ≠ key := by
  rintro rfl
  rw [h] at hk
  cases hk

theorem keeps_down010a (h : related 0x010a k = false) : Keeps k (down010a A family d) d := by
  have h1 := ne_of_related h (key := kKv) (by decide)
  have h2 := ne_of_related h (key := kVPerHz) (by decide)
  have h3 := ne_of_related h (key := kMaxPower) (by decide)
  unfold down010a
  keeps

theorem keeps_up010a (h : related 0x010a k = false) : Keeps k (up010a A family d) d := by
  have h1 := ne_of_related h (key := kKv) (by decide)
  have h2 := ne_of_related h (key := kVPerHz) (by decide)
  have h3 := ne_of_related h (key := kMaxPower) (by decide)
  unfold up010a
  keeps

theorem related_comp (s i : Nat) : related 0x0109 (kComp s i) = true := rfl

theorem related_compScale (s : Nat) : related 0x0109 (kSource s "compensation_scale") = true := by
  simp [related, kSource]

theorem keeps_downComp (s : Nat) (h : related 0x0109 k = false) : Keeps k (downComp A s d) d := by
  have h1 := ne_of_related h (related_compScale s)
  have h2 (i : Nat) := ne_of_related h (related_comp s i)
  unfold downComp
  keeps
  refine get_foldl _ _ _ (fun i _ e => by rw [get_set, if_neg (h2 i)]) ?_
  refine get_foldl _ _ _ (fun i _ e => by rw [get_drop, if_neg (h2 i)]) ?_
  keeps

theorem keeps_down0109 (h : related 0x0109 k = false) : Keeps k (down0109 A d) d := by
  have h1 := ne_of_related h (key := kEnableTemp) (by decide)
  have h2 := ne_of_related h (key := kThermistor) (by decide)
  have h3 := ne_of_related h (key := kAuxPwm "aux1") (by decide)
  have h4 := ne_of_related h (key := kAuxPwm "aux2") (by decide)
  unfold down0109
  keeps
  all_goals exact (keeps_downComp A _ h).trans (by keeps)

theorem keeps_upComp (s : Nat) (h : related 0x0109 k = false) : Keeps k (upComp A s d) d := by
  have h1 := ne_of_related h (related_compScale s)
  have h2 (i : Nat) := ne_of_related h (related_comp s i)
  unfold upComp
  keeps
  exact get_foldl _ _ _ (fun p _ e => by rw [get_set, if_neg (h2 p.2)]) rfl

theorem keeps_up0109b (h : related 0x0109 k = false) : Keeps k (up0109b A d) d := by
  have h1 := ne_of_related h (key := kThermistor) (by decide)
  unfold up0109b
  keeps
  all_goals exact (keeps_upComp A _ h).trans (by keeps)

theorem related_offset (i : Nat) : related 0x0109 (kOffset i) = true := rfl

theorem keeps_up0109a (h : related 0x0109 k = false) : Keeps k (up0109a A d) d := by
  have h2 (i : Nat) := ne_of_related h (related_offset i)
  unfold up0109a
  keeps
  exact get_foldl _ _ _ (fun p _ e => by rw [get_set, if_neg (h2 p.2)]) rfl

theorem keeps_down0108 (h : related 0x0108 k = false) : Keeps k (down0108 A d) d := by
  have h1 := ne_of_related h (key := kBemf) (by decide)
  unfold down0108
  keeps

theorem keeps_up0108 (h : related 0x0108 k = false) : Keeps k (up0108 A d) d := by
  have h1 := ne_of_related h (key := kBemf) (by decide)
  unfold up0108
  keeps

theorem keeps_down0107 (h : related 0x0107 k = false) : Keeps k (down0107 d) d := by
  have h1 := ne_of_related h (key := kOutput "sign") (by decide)
  unfold down0107
  keeps

theorem keeps_up0107 : Keeps k (up0107 d) d := by
  unfold up0107
  keeps

theorem keeps_foldlM {α : Type} (f : Items → α → M Items) (l : List α) (e : Items)
    (h : ∀ x ∈ l, ∀ e, Keeps k (f e x) e) (he : get e k = get d k) : Keeps k (l.foldlM f e) d := by
  induction l generalizing e with
  | nil => exact Keeps.pure he
  | cons x l ih =>
    rw [List.foldlM_cons]
    exact Keeps.seq ((h x (by simp) e).trans he) fun e' he' => ih e' (fun y hy => h y (by simp [hy])) he'

theorem related_device (x : String × Nat) (hx : x ∈ devices) :
    related 0x0106 (kDevice x.1 x.2 "poll_ms") = true ∧
    related 0x0106 (kDevice x.1 x.2 "poll_rate_us") = true := by
  simp only [devices, List.mem_cons, List.not_mem_nil, or_false] at hx
  rcases hx with rfl | rfl | rfl | rfl | rfl | rfl <;> decide

theorem keeps_down0106 (h : related 0x0106 k = false) : Keeps k (down0106 d) d := by
  unfold down0106
  refine keeps_foldlM _ _ _ (fun x hx e => ?_) rfl
  have h1 := ne_of_related h (related_device x hx).1
  have h2 := ne_of_related h (related_device x hx).2
  unfold downPoll
  keeps

theorem keeps_up0106 (h : related 0x0106 k = false) : Keeps k (up0106 d) d := by
  unfold up0106
  refine keeps_foldlM _ _ _ (fun x hx e => ?_) rfl
  have h1 := ne_of_related h (related_device x hx).1
  have h2 := ne_of_related h (related_device x hx).2
  unfold upPoll
  keeps

/-- `isNew0105` and `isAbsPort` only select related settings. -/
theorem related_new0105 (h : related 0x0105 k = false) : isNew0105 k = false := by
  change related0105 k = false at h
  by_contra hc
  have hc : isNew0105 k = true := by simpa using hc
  unfold isNew0105 at hc
  unfold related0105 at h
  split at hc
  · next a b rest =>
    simp only [Bool.or_eq_true, Bool.and_eq_true, beq_iff_eq] at hc
    rcases hc with (((((hc | hc) | hc) | hc) | hc) | ⟨hc, hp⟩) | ⟨hc, hp⟩ <;> subst hc
    · simp at h
    · simp at h
    · simp at h
    · simp at h
    · simp at h
    · simp only [hp, Bool.or_eq_false_iff] at h; simp at h
    · simp only [hp, Bool.or_eq_false_iff] at h; simp at h
  · next a x rest _ =>
    simp only [Bool.or_eq_true, beq_iff_eq] at hc
    rcases hc with (((hc | hc) | hc) | hc) | hc <;> subst hc <;> simp at h
  · cases hc

theorem related_absPort (h : related 0x0105 k = false) : isAbsPort k = false := by
  change related0105 k = false at h
  by_contra hc
  have hc : isAbsPort k = true := by simpa using hc
  unfold isAbsPort at hc
  split at hc
  · simp only [beq_iff_eq] at hc
    subst hc
    simp [related0105] at h
  · cases hc

theorem get_filter_ne {e : Items} {p : Key → Bool} (hk : p k = false) (he : get e k = get d k) :
    get (e.filter fun x => !p x.1) k = get d k := by
  rw [get_filter e (fun k => !p k), hk]
  simpa using he

theorem keeps_down0105 (h : related 0x0105 k = false) : Keeps k (down0105 A d) d := by
  have h1 := ne_of_related h (key := kSource 0 "sign") (by decide)
  have h2 := ne_of_related h (key := kInvert) (by decide)
  have h3 := ne_of_related h (key := kPositionOffset) (by decide)
  have h4 := ne_of_related h (key := kRatio) (by decide)
  have h5 := ne_of_related h (key := kUnwrappedScale) (by decide)
  unfold down0105
  keeps
  all_goals refine get_filter_ne (related_new0105 h) ?_
  all_goals keeps

theorem keeps_upAbs (h : related 0x0105 k = false) : Keeps k (upAbs A d) d := by
  have a1 := ne_of_related h (key := kI2c "i2c_hz") (by decide)
  have a2 := ne_of_related h (key := kI2c "i2c_mode") (by decide)
  have a3 := ne_of_related h (key := kDevice "aux2" 0 "type") (by decide)
  have a4 := ne_of_related h (key := kDevice "aux2" 0 "address") (by decide)
  have a5 := ne_of_related h (key := kDevice "aux2" 0 "poll_ms") (by decide)
  have a6 := ne_of_related h (key := kPin "aux2" 0 "mode") (by decide)
  have a7 := ne_of_related h (key := kPin "aux2" 1 "mode") (by decide)
  have a8 := ne_of_related h (key := kPin "aux2" 0 "pull") (by decide)
  have a9 := ne_of_related h (key := kPin "aux2" 1 "pull") (by decide)
  have b1 := ne_of_related h (key := kSource 1 "type") (by decide)
  have b2 := ne_of_related h (key := kSource 1 "aux_number") (by decide)
  have b3 := ne_of_related h (key := kSource 1 "i2c_device") (by decide)
  have b4 := ne_of_related h (key := kSource 1 "offset") (by decide)
  have b5 := ne_of_related h (key := kSource 1 "reference") (by decide)
  have b6 := ne_of_related h (key := kSource 1 "pll_filter_hz") (by decide)
  have b7 := ne_of_related h (key := kSource 1 "cpr") (by decide)
  have b8 := ne_of_related h (key := kSource 1 "sign") (by decide)
  have b9 := ne_of_related h (key := kOutput "reference_source") (by decide)
  have c1 := ne_of_related h (key := kRezero) (by decide)
  unfold upAbs auxDevice auxSource
  keeps
  all_goals refine get_filter_ne (related_absPort h) ?_
  all_goals keeps

theorem keeps_upEncoder (h : related 0x0105 k = false) : Keeps k (upEncoder d) d := by
  have a1 := ne_of_related h (key := kSpiMode) (by decide)
  have a2 := ne_of_related h (key := kPin "aux1" 0 "mode") (by decide)
  have a3 := ne_of_related h (key := kPin "aux1" 1 "mode") (by decide)
  have a4 := ne_of_related h (key := kPin "aux1" 2 "mode") (by decide)
  have a5 := ne_of_related h (key := kPin "aux1" 3 "mode") (by decide)
  have a6 := ne_of_related h (key := kEncoderMode) (by decide)
  unfold upEncoder
  keeps

theorem keeps_upOffset (h : related 0x0105 k = false) : Keeps k (upOffset A d) d := by
  have a1 := ne_of_related h (key := kPositionOffset) (by decide)
  have a2 := ne_of_related h (key := kUnwrappedScale) (by decide)
  have a3 := ne_of_related h (key := kOutput "offset") (by decide)
  have a4 := ne_of_related h (key := kInvert) (by decide)
  have a5 := ne_of_related h (key := kSource 0 "sign") (by decide)
  have a6 := ne_of_related h (key := kRatio) (by decide)
  unfold upOffset
  keeps

theorem keeps_upFilter (p : ℚ) (h : related 0x0105 k = false) : Keeps k (upFilter A p d) d := by
  have a1 := ne_of_related h (key := kVelFilter) (by decide)
  have a2 := ne_of_related h (key := kEncFilter "kp") (by decide)
  have a3 := ne_of_related h (key := kEncFilter "ki") (by decide)
  have a4 := ne_of_related h (key := kEncFilter "enabled") (by decide)
  have a5 := ne_of_related h (key := kEncFilter "debug_override") (by decide)
  have a6 := ne_of_related h (key := kSource 0 "pll_filter_hz") (by decide)
  have a7 := ne_of_related h (key := kSource 0 "debug_override") (by decide)
  unfold upFilter
  keeps

theorem keeps_upPwmRate (h : related 0x0105 k = false) : Keeps k (upPwmRate d) d := by
  have a1 := ne_of_related h (key := kPwmRate) (by decide)
  unfold upPwmRate
  split <;> keeps

theorem keeps_up0105 (h : related 0x0105 k = false) : Keeps k (up0105 A d) d := by
  unfold up0105
  refine Keeps.seq (keeps_upAbs A h) fun e he => ?_
  refine Keeps.seq ((keeps_upEncoder h).trans he) fun e he => ?_
  refine Keeps.seq ((keeps_upOffset A h).trans he) fun e he => ?_
  refine Keeps.seq ((keeps_upFilter A _ h).trans he) fun e he => ?_
  exact (keeps_upPwmRate h).trans he

theorem keeps_pwm (h : related 0x0104 k = false) : k ≠ kCompMag ∧ k ≠ kCompOff ∧ k ≠ kPwmScale :=
  ⟨ne_of_related h (by decide), ne_of_related h (by decide), ne_of_related h (by decide)⟩

theorem keeps_down0104 (h : related 0x0104 k = false) : Keeps k (down0104 A d) d := by
  obtain ⟨h1, h2, h3⟩ := keeps_pwm h
  unfold down0104
  keeps

theorem keeps_up0104 (h : related 0x0104 k = false) : Keeps k (up0104 A d) d := by
  obtain ⟨h1, h2, h3⟩ := keeps_pwm h
  unfold up0104
  keeps

theorem keeps_down0103 (h : related 0x0103 k = false) : Keeps k (down0103 A d) d := by
  have h1 := ne_of_related h (key := kCompMag) (by decide)
  have h2 := ne_of_related h (key := kCompOff) (by decide)
  have h3 := ne_of_related h (key := kPoles) (by decide)
  unfold down0103
  keeps

theorem keeps_up0103 (h : related 0x0103 k = false) : Keeps k (up0103 A d) d := by
  have h1 := ne_of_related h (key := kCompMag) (by decide)
  have h2 := ne_of_related h (key := kCompOff) (by decide)
  have h3 := ne_of_related h (key := kPwmScale) (by decide)
  unfold up0103
  keeps

theorem keeps_down0101 (h : related 0x0101 k = false) : Keeps k (down0101 A d) d := by
  have h1 := ne_of_related h (key := kFeedforward) (by decide)
  unfold down0101
  keeps

theorem keeps_up0101 (h : related 0x0101 k = false) : Keeps k (up0101 A d) d := by
  have h1 := ne_of_related h (key := kFeedforward) (by decide)
  unfold up0101
  keeps

/-- C27: a migration between any two versions keeps every setting that none of
the versions in between is about: it is present in the result exactly if it was
present, with the same value. -/
theorem C27_untouched (old new : Nat) (d d' : Items) (k : Key)
    (hm : migrate A old new family d = .ok d')
    (h : ∀ b, Crossed old new b → related b k = false) : get d' k = get d k := by
  revert d'
  suffices H : Keeps k (migrate A old new family d) d from H
  have dn (a b : Nat) (hab : b = a + 1) (hc : decide (new ≤ a ∧ old ≥ b) = true) :
      related b k = false := by
    have := of_decide_eq_true hc
    exact h b (Or.inr ⟨by omega, this.2⟩)
  have up (a b : Nat) (hab : b = a + 1) (hc : decide (new ≥ b ∧ old ≤ a) = true) :
      related b k = false := by
    have := of_decide_eq_true hc
    exact h b (Or.inl ⟨by omega, this.1⟩)
  unfold migrate
  refine Keeps.seq (keeps_onlyIf rfl fun c => keeps_down010a A family (dn _ _ rfl c)) fun _ e => ?_
  refine Keeps.seq (keeps_onlyIf e fun c => keeps_down0109 A (dn _ _ rfl c)) fun _ e => ?_
  refine Keeps.seq (keeps_onlyIf e fun c => keeps_down0108 A (dn _ _ rfl c)) fun _ e => ?_
  refine Keeps.seq (keeps_onlyIf e fun c => keeps_down0107 (dn _ _ rfl c)) fun _ e => ?_
  refine Keeps.seq (keeps_onlyIf e fun c => keeps_down0106 (dn _ _ rfl c)) fun _ e => ?_
  refine Keeps.seq (keeps_onlyIf e fun c => keeps_down0105 A (dn _ _ rfl c)) fun _ e => ?_
  refine Keeps.seq (keeps_onlyIf e fun c => keeps_down0104 A (dn _ _ rfl c)) fun _ e => ?_
  refine Keeps.seq (keeps_onlyIf e fun c => keeps_down0103 A (dn _ _ rfl c)) fun _ e => ?_
  refine Keeps.seq (keeps_onlyIf e fun c => keeps_down0101 A
    (h _ (Or.inr ⟨by have := of_decide_eq_true c; omega, by have := of_decide_eq_true c; omega⟩)))
    fun _ e => ?_
  refine Keeps.seq (keeps_onlyIf e fun c => keeps_up0101 A
    (h _ (Or.inl ⟨by have := of_decide_eq_true c; omega, by have := of_decide_eq_true c; omega⟩)))
    fun _ e => ?_
  refine Keeps.seq (keeps_onlyIf e fun c => keeps_up0103 A (up _ _ rfl c)) fun _ e => ?_
  refine Keeps.seq (keeps_onlyIf e fun c => keeps_up0104 A (up _ _ rfl c)) fun _ e => ?_
  refine Keeps.seq (keeps_onlyIf e fun c => keeps_up0105 A (up _ _ rfl c)) fun _ e => ?_
  refine Keeps.seq (keeps_onlyIf e fun c => keeps_up0106 (up _ _ rfl c)) fun _ e => ?_
  refine Keeps.seq (keeps_onlyIf e fun _ => keeps_up0107) fun _ e => ?_
  refine Keeps.seq (keeps_onlyIf e fun c => keeps_up0108 A (up _ _ rfl c)) fun _ e => ?_
  refine Keeps.seq (keeps_onlyIf e fun c => keeps_up0109a A (up _ _ rfl c)) fun _ e => ?_
  refine Keeps.seq (keeps_onlyIf e fun c => keeps_up0109b A (up _ _ rfl c)) fun _ e => ?_
  exact keeps_onlyIf e fun c => keeps_up010a A family (up _ _ rfl c)

/-- Exact arithmetic. -/
def exact : Arith := ⟨.fin, some⟩

/-- A setting of the host is untouched by an upgrade from 0x0107 to 0x0108,
which does change the back EMF setting. -/
example :
    let d : Items := [([.n "id", .n "id"], .int 7), (kBemf, .flt (.fin 1))]
    migrate exact 0x0107 0x0108 0 d =
      .ok [([.n "id", .n "id"], .int 7), (kBemf, .flt (.fin 0))] ∧
    ∀ b, Crossed 0x0107 0x0108 b → related b [.n "id", .n "id"] = false := by
  refine ⟨by decide +kernel, fun b hb => ?_⟩
  have : b = 0x0108 := by unfold Crossed at hb; omega
  subst this
  decide

end Verif.Tool
