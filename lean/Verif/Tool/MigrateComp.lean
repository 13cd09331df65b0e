import Verif.Tool.MigrateOffset

/-!
# Configuration migration: compensation tables

Version 0x0109 resamples the encoder compensation tables from 32 floats to 256
scaled bytes (C27).
-/

namespace Verif.Tool

open Verif.Float

/-! ## Lists of assignments -/

theorem mapM_ok {α β : Type} (f : α → M β) (g : α → β) (l : List α) (h : ∀ a ∈ l, f a = .ok (g a)) :
    l.mapM f = .ok (l.map g) := by
  induction l with
  | nil => rfl
  | cons a l ih =>
    rw [List.mapM_cons, h a (by simp), ok_bind, ih fun b hb => h b (by simp [hb])]
    rfl

theorem get_foldl_drop (key : Nat → Key) (l : List Nat) (d : Items) (k : Key) :
    get (l.foldl (fun d i => drop d (key i)) d) k =
      if k ∈ l.map key then none else get d k := by
  induction l generalizing d with
  | nil => simp
  | cons i l ih =>
    rw [List.foldl_cons, ih, get_drop]
    by_cases h : k = key i
    · simp [h]
    · simp [h]

/-- Setting `key i` for every `i` of a list to a value that depends on `i`. -/
theorem get_foldl_set (key : Nat → Key) (hkey : Function.Injective key) (f : Nat → Val)
    (l : List Nat) (d : Items) (i : Nat) :
    get (l.foldl (fun d i => set d (key i) (f i)) d) (key i) =
      if i ∈ l then some (f i) else get d (key i) := by
  induction l generalizing d with
  | nil => simp
  | cons j l ih =>
    rw [List.foldl_cons, ih, get_set]
    by_cases h : i = j
    · simp [h]
    · have : key i ≠ key j := fun e => h (hkey e)
      simp [h, this]

theorem zipIdx_map_range {α : Type} (g : Nat → α) (n : Nat) :
    ((List.range n).map g).zipIdx = (List.range n).map fun i => (g i, i) := by
  apply List.ext_getElem
  · simp
  · intro i h1 h2
    simp

theorem kComp_injective (s : Nat) : Function.Injective (kComp s) := by
  intro i j h
  unfold kComp at h
  simpa using h

theorem kComp_ne {s t : Nat} (h : s ≠ t) (i j : Nat) : kComp s i ≠ kComp t j := by
  unfold kComp; simp [h]

theorem kOffset_injective : Function.Injective kOffset := by
  intro i j h
  unfold kOffset at h
  simpa using h

/-! ## One source -/

/-- The first `n` bins of a table hold the numbers `x`. -/
def Bins (A : Arith) (d : Items) (s n : Nat) (x : Nat → ℚ) : Prop :=
  ∀ i < n, Holds A d (kComp s i) (.fin (x i))

theorem fmax_spec (a : ℚ) (l : List ℚ) :
    ∃ m, fmax (.fin a) (l.map .fin) = .fin m ∧ m ∈ a :: l ∧ ∀ b ∈ a :: l, b ≤ m := by
  induction l generalizing a with
  | nil => exact ⟨a, rfl, by simp, by simp⟩
  | cons b l ih =>
    simp only [List.map_cons, fmax, fgt]
    by_cases h : b > a
    · simp only [h, decide_true, if_true]
      obtain ⟨m, h1, h2, h3⟩ := ih b
      refine ⟨m, h1, by simp at h2 ⊢; tauto, fun c hc => ?_⟩
      have hb := h3 b (by simp)
      rcases List.mem_cons.1 hc with rfl | hc
      · linarith
      · exact h3 c hc
    · simp only [h, decide_false, Bool.false_eq_true, if_false]
      obtain ⟨m, h1, h2, h3⟩ := ih a
      refine ⟨m, h1, by simp at h2 ⊢; tauto, fun c hc => ?_⟩
      have ha := h3 a (by simp)
      simp only [List.mem_cons] at hc
      rcases hc with rfl | rfl | hc
      · exact ha
      · linarith
      · exact h3 c (by simp [hc])

/-- Truncation towards zero. -/
def trunc (q : ℚ) : Int := if 0 ≤ q then ⌊q⌋ else ⌈q⌉

theorem trunc_err (q : ℚ) : |(trunc q : ℚ) - q| < 1 := by
  unfold trunc
  split
  · have h1 := Int.floor_le q
    have h2 := Int.lt_floor_add_one q
    rw [abs_lt]; constructor <;> linarith
  · have h1 := Int.le_ceil q
    have h2 := Int.ceil_lt_add_one q
    rw [abs_lt]; constructor <;> linarith

theorem lerp_at (A : Arith) (hA : ∀ q, A.rnd q = .fin q) (x : Nat → ℚ) (i : Nat) (hi : i < 32) :
    lerp A ((List.range 32).map fun i => Fl.fin (x i)) (i * 8) = .fin (x i) := by
  unfold lerp
  have h1 : i * 8 / 8 = i := by omega
  have h2 : i * 8 % 8 = 0 := by omega
  have g (j : Nat) (hj : j < 32) : ((List.range 32).map fun i => Fl.fin (x i)).getD j .nan = .fin (x j) := by
    simp [List.getD_eq_getElem?_getD, List.getElem?_range hj]
  rw [h1, h2, g i hi, g ((i + 1) % 32) (Nat.mod_lt _ (by decide))]
  simp only [fmul, hA, fadd]
  congr 1
  simp

theorem lerp_fin (A : Arith) (hA : ∀ q, A.rnd q = .fin q) (x : Nat → ℚ) (i : Nat) (hi : i < 256) :
    ∃ y, lerp A ((List.range 32).map fun i => Fl.fin (x i)) i = .fin y := by
  unfold lerp
  have g (j : Nat) (hj : j < 32) : ((List.range 32).map fun i => Fl.fin (x i)).getD j .nan = .fin (x j) := by
    simp [List.getD_eq_getElem?_getD, List.getElem?_range hj]
  rw [g (i / 8) (by omega), g ((i / 8 + 1) % 32) (Nat.mod_lt _ (by decide))]
  simp only [fmul, hA, fadd]
  exact ⟨_, rfl⟩

/-- What an upgrade makes of one table. -/
theorem upComp_spec (A : Arith) (hA : ∀ q, A.rnd q = .fin q) (s : Nat) (d : Items)
    (x : Nat → ℚ) (hx : Bins A d s 32 x) :
    ∃ d1, upComp A s d = .ok d1 ∧ ∃ (S : ℚ) (v : Nat → Int), (∀ i < 32, |x i| ≤ S) ∧ (∃ i < 32, S = |x i|) ∧
      (∀ i < 256, get d1 (kComp s i) = some (.int (v i))) ∧
      get d1 (kSource s "compensation_scale") = some (.flt (.fin S)) ∧
      ∀ i < 32, v (i * 8) = if S = 0 then 0 else trunc (127 * x i / S) := by
  have hb : (List.range 32).mapM (readBin A d s) = .ok ((List.range 32).map fun i => Fl.fin (x i)) := by
    refine mapM_ok _ (fun i => Fl.fin (x i)) _ fun i hi => ?_
    obtain ⟨v, h1, h2⟩ := hx i (List.mem_range.1 hi)
    simp only [readBin, h1, h2]
  have hs : ∃ S, fmax (fabs (((List.range 32).map fun i => Fl.fin (x i)).headD .nan))
      ((((List.range 32).map fun i => Fl.fin (x i)).drop 1).map fabs) = .fin S ∧
      (∀ i < 32, |x i| ≤ S) ∧ ∃ i < 32, S = |x i| := by
    obtain ⟨m, h1, h2, h3⟩ := fmax_spec |x 0| (((List.range 32).drop 1).map fun i => |x i|)
    refine ⟨m, ?_, fun i hi => h3 _ ?_, ?_⟩
    · rw [← h1]
      congr 1
    · rcases Nat.eq_zero_or_pos i with rfl | hp
      · simp
      · refine List.mem_cons_of_mem _ (List.mem_map.2 ⟨i, ?_, rfl⟩)
        rw [List.mem_iff_getElem]
        exact ⟨i - 1, by simp; omega, by simp; omega⟩
    · rcases List.mem_cons.1 h2 with rfl | h2
      · exact ⟨0, by decide, rfl⟩
      · obtain ⟨i, hi, rfl⟩ := List.mem_map.1 h2
        exact ⟨i, List.mem_range.1 (List.mem_of_mem_drop hi), rfl⟩
  obtain ⟨S, hS, hle, hmem⟩ := hs
  let y : Nat → ℚ := fun i => match lerp A ((List.range 32).map fun i => Fl.fin (x i)) i with
    | .fin q => q | _ => 0
  let v : Nat → Int := fun i => if S = 0 then 0 else trunc (127 * y i / S)
  have hv : ((List.range 256).mapM fun i =>
      if !feq (.fin S) (.fin 0) then do
        let q ← fdiv A (fmul A (.fin 127) (lerp A ((List.range 32).map fun i => Fl.fin (x i)) i)) (.fin S)
        ftrunc q
      else pure 0) = .ok ((List.range 256).map v) := by
    refine mapM_ok _ v _ fun i hi => ?_
    obtain ⟨q, hq⟩ := lerp_fin A hA x i (List.mem_range.1 hi)
    by_cases h0 : S = 0
    · simp [feq, h0, v]; rfl
    · have hy : y i = q := by simp only [y, hq]
      simp only [feq, h0, decide_false, Bool.not_false, if_true, hq, fmul, hA, fdiv_fin A _ _ h0,
        ok_bind, ftrunc, v, if_false, hy]
      rfl
  unfold upComp
  rw [hb, ok_bind]
  simp only [hS]
  rw [hv, ok_bind]
  refine ⟨_, rfl, ?_⟩
  rw [zipIdx_map_range, List.foldl_map]
  refine ⟨S, v, hle, hmem, fun i hi => ?_, ?_, fun i hi => ?_⟩
  · rw [get_set, if_neg (by simp [kComp, kSource])]
    rw [get_foldl_set (kComp s) (kComp_injective s) (fun i => .int (v i)), if_pos (List.mem_range.2 hi)]
  · rw [get_set, if_pos rfl]
  · have : y (i * 8) = x i := by simp only [y, lerp_at A hA x i hi]
    simp only [v, this]

/-- What a downgrade makes of one table. -/
theorem downComp_spec (A : Arith) (hA : ∀ q, A.rnd q = .fin q) (s : Nat) (d : Items)
    (y : Nat → ℚ) (S : ℚ) (hy : Bins A d s 256 y)
    (hS : Holds A d (kSource s "compensation_scale") (.fin S)) :
    ∃ d1, downComp A s d = .ok d1 ∧ Bins A d1 s 32 (fun i => y (i * 8) * (S / 127)) ∧
      ∀ i, 32 ≤ i → i < 256 → get d1 (kComp s i) = none := by
  unfold downComp
  rw [hS.or, ok_bind]
  simp only [fdiv_fin A S 127 (by norm_num), ok_bind, hA]
  set e := drop d (kSource s "compensation_scale") with he
  have hb : ((List.range 256).mapM fun i => do
      let x ← floatGet A e (kComp s i)
      pure (fmul A x (.fin (S / 127)))) =
      .ok ((List.range 256).map fun i => Fl.fin (y i * (S / 127))) := by
    refine mapM_ok _ (fun i => Fl.fin (y i * (S / 127))) _ fun i hi => ?_
    have := (hy i (List.mem_range.1 hi)).congr (e := e)
      (by rw [he, get_drop, if_neg (by simp [kComp, kSource])])
    rw [this.get, ok_bind]
    simp only [fmul, hA]; rfl
  rw [hb, ok_bind]
  refine ⟨_, rfl, ?_, ?_⟩
  · intro i hi
    refine ⟨.flt (.fin (y (i * 8) * (S / 127))), ?_, rfl⟩
    rw [get_foldl_set (kComp s) (kComp_injective s), if_pos (List.mem_range.2 hi)]
    have : i * 8 < 256 := by omega
    simp [List.getD_eq_getElem?_getD, List.getElem?_range this]
  · intro i h1 h2
    rw [get_foldl_set (kComp s) (kComp_injective s), if_neg (by simp; omega), get_foldl_drop, if_pos]
    exact List.mem_map.2 ⟨i, List.mem_range.2 h2, rfl⟩

/-! ## The whole migration -/

section
variable (A : Arith) (d : Items)

/-- The settings of one table. -/
def isTable (s : Nat) (k : Key) : Prop :=
  (∃ i, k = kComp s i) ∨ k = kSource s "compensation_scale"

theorem isTable_other {s t : Nat} (h : s ≠ t) {k : Key} (hk : isTable s k) : ¬ isTable t k := by
  rcases hk with ⟨i, rfl⟩ | rfl
  · rintro (⟨j, hj⟩ | hj)
    · exact kComp_ne h i j hj
    · simp [kComp, kSource] at hj
  · rintro (⟨j, hj⟩ | hj)
    · simp [kComp, kSource] at hj
    · simp [kSource, h] at hj

theorem keeps_upComp_other (s t : Nat) (h : s ≠ t) (k : Key) (hk : isTable s k) :
    Keeps k (upComp A t d) d := by
  have hn := isTable_other h hk
  have h1 (i : Nat) : k ≠ kComp t i := fun e => hn (Or.inl ⟨i, e⟩)
  have h2 : k ≠ kSource t "compensation_scale" := fun e => hn (Or.inr e)
  unfold upComp
  keeps
  refine get_foldl _ _ _ (fun x _ e => ?_) rfl
  rw [get_set, if_neg (h1 _)]

theorem keeps_downComp_other (s t : Nat) (h : s ≠ t) (k : Key) (hk : isTable s k) :
    Keeps k (downComp A t d) d := by
  have hn := isTable_other h hk
  have h1 (i : Nat) : k ≠ kComp t i := fun e => hn (Or.inl ⟨i, e⟩)
  have h2 : k ≠ kSource t "compensation_scale" := fun e => hn (Or.inr e)
  unfold downComp
  keeps
  refine get_foldl _ _ _ (fun x _ e => ?_) (get_foldl _ _ _ (fun x _ e => ?_) ?_)
  · rw [get_set, if_neg (h1 _)]
  · rw [get_drop, if_neg (h1 _)]
  · rw [get_drop, if_neg h2]

theorem keeps_up0109a_table (s : Nat) (k : Key) (hk : isTable s k) : Keeps k (up0109a A d) d := by
  have h1 (i : Nat) : k ≠ kOffset i := by
    rcases hk with ⟨j, rfl⟩ | rfl <;> simp [kComp, kSource, kOffset]
  unfold up0109a
  keeps
  refine get_foldl _ _ _ (fun x _ e => ?_) rfl
  rw [get_set, if_neg (h1 _)]

theorem intOr_set {d : Items} {k : Key} {n : Int} : intOr (set d k (.int n)) k 0 = .ok n := by
  unfold intOr; rw [get_set, if_pos rfl]; rfl

/-- Three steps, each of which does what is wanted of its own table `s` and
leaves the other tables alone. -/
theorem three_tables (f : Nat → Items → M Items)
    (other : ∀ s t d k, s ≠ t → isTable s k → Keeps k (f t d) d)
    (P : Nat → Items → Prop) (Q : Nat → Items → Prop)
    (congrP : ∀ s d e, (∀ k, isTable s k → get e k = get d k) → P s d → P s e)
    (congrQ : ∀ s d e, (∀ k, isTable s k → get e k = get d k) → Q s d → Q s e)
    (step : ∀ s d, P s d → ∃ d1, f s d = .ok d1 ∧ Q s d1) (d : Items) (h : ∀ s < 3, P s d) :
    ∃ d1, (do let d ← f 0 d; let d ← f 1 d; f 2 d) = .ok d1 ∧ ∀ s < 3, Q s d1 := by
  obtain ⟨e1, h1, q0⟩ := step 0 d (h 0 (by decide))
  have k1 (s : Nat) (hs : s ≠ 0) (k : Key) (hk : isTable s k) : get e1 k = get d k :=
    other s 0 d k hs hk e1 h1
  obtain ⟨e2, h2, q1⟩ := step 1 e1 (congrP 1 d e1 (k1 1 (by decide)) (h 1 (by decide)))
  have k2 (s : Nat) (hs : s ≠ 1) (k : Key) (hk : isTable s k) : get e2 k = get e1 k :=
    other s 1 e1 k hs hk e2 h2
  obtain ⟨e3, h3, q2⟩ := step 2 e2 (congrP 2 e1 e2 (k2 2 (by decide))
    (congrP 2 d e1 (k1 2 (by decide)) (h 2 (by decide))))
  have k3 (s : Nat) (hs : s ≠ 2) (k : Key) (hk : isTable s k) : get e3 k = get e2 k :=
    other s 2 e2 k hs hk e3 h3
  refine ⟨e3, by rw [h1, ok_bind, h2, ok_bind, h3], fun s hs => ?_⟩
  obtain rfl | rfl | rfl : s = 0 ∨ s = 1 ∨ s = 2 := by omega
  · exact congrQ 0 e2 e3 (k3 0 (by decide)) (congrQ 0 e1 e2 (k2 0 (by decide)) q0)
  · exact congrQ 1 e2 e3 (k3 1 (by decide)) q1
  · exact q2

/-- A table as the upgrade leaves it: bytes `v` and a scale, for bins `x`. -/
def Upsampled (d : Items) (s : Nat) (x : Nat → ℚ) (S : ℚ) (v : Nat → Int) : Prop :=
  (∀ i < 32, |x i| ≤ S) ∧ (∃ i < 32, S = |x i|) ∧
    (∀ i < 256, get d (kComp s i) = some (.int (v i))) ∧
    get d (kSource s "compensation_scale") = some (.flt (.fin S)) ∧
    ∀ i < 32, v (i * 8) = if S = 0 then 0 else trunc (127 * x i / S)

theorem Upsampled.congr {d e : Items} {s : Nat} {x : Nat → ℚ} {S : ℚ} {v : Nat → Int}
    (h : ∀ k, isTable s k → get e k = get d k) (hd : Upsampled d s x S v) : Upsampled e s x S v := by
  obtain ⟨a1, a2, a3, a4, a5⟩ := hd
  exact ⟨a1, a2, fun i hi => by rw [h _ (Or.inl ⟨i, rfl⟩), a3 i hi], by rw [h _ (Or.inr rfl), a4], a5⟩

theorem upgrade_table (hA : ∀ q, A.rnd q = .fin q) (en : Int) (d : Items)
    (x : Nat → Nat → ℚ) (hx : ∀ s < 3, Bins A d s 32 (x s)) (he : intOr d kEnableTemp 0 = .ok en) :
    ∃ d1, up0109b A d = .ok d1 ∧ ∀ s < 3, ∃ S v, Upsampled d1 s (x s) S v := by
  unfold up0109b
  rw [he, ok_bind]
  dsimp only
  set e2 := if en ≠ 0 then Tool.set d kThermistor (.int 47000) else d with he2
  have g2 (s : Nat) (k : Key) (hk : isTable s k) : get e2 k = get d k := by
    have hne : k ≠ kThermistor := by
      rcases hk with ⟨j, rfl⟩ | rfl <;> simp [kComp, kSource, kThermistor]
    rw [he2]; split
    · rw [get_set, if_neg hne]
    · rfl
  have hh : has e2 (kComp 0 0) = true := by
    obtain ⟨v, hv, _⟩ := hx 0 (by decide) 0 (by decide)
    unfold has; rw [g2 0 _ (Or.inl ⟨0, rfl⟩), hv]; rfl
  rw [if_pos hh]
  refine three_tables (upComp A) (fun s t d k h hk => keeps_upComp_other A d s t h k hk)
    (fun s d => Bins A d s 32 (x s)) (fun s d => ∃ S v, Upsampled d s (x s) S v) ?_ ?_ ?_ e2 ?_
  · exact fun s d e h hb i hi => (hb i hi).congr (h _ (Or.inl ⟨i, rfl⟩))
  · rintro s d e h ⟨S, v, hu⟩
    exact ⟨S, v, hu.congr h⟩
  · exact fun s d hb => upComp_spec A hA s d (x s) hb
  · exact fun s hs i hi => (hx s hs i hi).congr (g2 s _ (Or.inl ⟨i, rfl⟩))

/-- The other settings that a downgrade to 0x0108 insists on. -/
structure Downgradable (d : Items) : Prop where
  temp : ∃ n, intOr d [.n "servo", .n "enable_motor_temperature"] 0 = .ok n
  thermistor : ∃ q : ℚ, Holds A d [.n "servo", .n "motor_thermistor_ohm"] (.fin q)
  aux1 : ∃ v, get d [.n "aux1", .n "pwm_period_us"] = some v
  aux2 : ∃ v, get d [.n "aux2", .n "pwm_period_us"] = some v

theorem downgrade_table (hA : ∀ q, A.rnd q = .fin q) (d : Items) (hd : Downgradable A d)
    (y : Nat → Nat → ℚ) (S : Nat → ℚ) (hy : ∀ s < 3, Bins A d s 256 (y s))
    (hS : ∀ s < 3, Holds A d (kSource s "compensation_scale") (.fin (S s))) :
    ∃ d1, down0109 A d = .ok d1 ∧
      ∀ s < 3, Bins A d1 s 32 (fun i => y s (i * 8) * (S s / 127)) ∧
        ∀ i, 32 ≤ i → i < 256 → get d1 (kComp s i) = none := by
  obtain ⟨⟨n, hn⟩, ⟨q, hq⟩, ⟨v1, hv1⟩, ⟨v2, hv2⟩⟩ := hd
  change intOr d kEnableTemp 0 = _ at hn
  change Holds A d kThermistor _ at hq
  change get d (kAuxPwm "aux1") = _ at hv1
  change get d (kAuxPwm "aux2") = _ at hv2
  have hoff : ∃ off, thermistorOff A d = .ok off := by
    unfold thermistorOff
    rw [hn, ok_bind]
    split
    · rw [hq.or, ok_bind]; exact ⟨_, rfl⟩
    · exact ⟨_, rfl⟩
  obtain ⟨off, hoff⟩ := hoff
  unfold down0109
  rw [hoff, ok_bind]
  dsimp only
  set e1 := if off = true then Tool.set d kEnableTemp (.int 0) else d with he1
  have g1 (k : Key) (hk : k ≠ kEnableTemp) : get e1 k = get d k := by
    rw [he1]; split
    · rw [get_set, if_neg hk]
    · rfl
  obtain ⟨vt, hvt, -⟩ := hq
  have p1 : pop e1 kThermistor = .ok (vt, drop e1 kThermistor) := by
    unfold pop need; rw [g1 _ (by decide), hvt]; rfl
  have p2 : pop (drop e1 kThermistor) (kAuxPwm "aux1") =
      .ok (v1, drop (drop e1 kThermistor) (kAuxPwm "aux1")) := by
    unfold pop need; rw [get_drop, if_neg (by decide), g1 _ (by decide), hv1]; rfl
  have p3 : pop (drop (drop e1 kThermistor) (kAuxPwm "aux1")) (kAuxPwm "aux2") =
      .ok (v2, drop (drop (drop e1 kThermistor) (kAuxPwm "aux1")) (kAuxPwm "aux2")) := by
    unfold pop need
    rw [get_drop, if_neg (by decide), get_drop, if_neg (by decide), g1 _ (by decide), hv2]; rfl
  rw [p1, ok_bind]; dsimp only
  rw [p2, ok_bind]; dsimp only
  rw [p3, ok_bind]; dsimp only
  set e4 := drop (drop (drop e1 kThermistor) (kAuxPwm "aux1")) (kAuxPwm "aux2") with he4
  have g (s : Nat) (k : Key) (hk : isTable s k) : get e4 k = get d k := by
    have n1 : k ≠ kEnableTemp := by
      rcases hk with ⟨j, rfl⟩ | rfl <;> simp [kComp, kSource, kEnableTemp]
    have n2 : k ≠ kThermistor := by
      rcases hk with ⟨j, rfl⟩ | rfl <;> simp [kComp, kSource, kThermistor]
    have n3 : k ≠ kAuxPwm "aux1" := by
      rcases hk with ⟨j, rfl⟩ | rfl <;> simp [kComp, kSource, kAuxPwm]
    have n4 : k ≠ kAuxPwm "aux2" := by
      rcases hk with ⟨j, rfl⟩ | rfl <;> simp [kComp, kSource, kAuxPwm]
    rw [he4, get_drop, if_neg n4, get_drop, if_neg n3, get_drop, if_neg n2, g1 k n1]
  have hh : has e4 (kComp 0 0) = true := by
    obtain ⟨v, hv, _⟩ := hy 0 (by decide) 0 (by decide)
    unfold has; rw [g 0 _ (Or.inl ⟨0, rfl⟩), hv]; rfl
  rw [if_pos hh]
  refine three_tables (downComp A) (fun s t d k h hk => keeps_downComp_other A d s t h k hk)
    (fun s d => Bins A d s 256 (y s) ∧ Holds A d (kSource s "compensation_scale") (.fin (S s)))
    (fun s d => Bins A d s 32 (fun i => y s (i * 8) * (S s / 127)) ∧
        ∀ i, 32 ≤ i → i < 256 → get d (kComp s i) = none) ?_ ?_ ?_ e4 ?_
  · exact fun s d e h hb => ⟨fun i hi => (hb.1 i hi).congr (h _ (Or.inl ⟨i, rfl⟩)),
      hb.2.congr (h _ (Or.inr rfl))⟩
  · exact fun s d e h hb => ⟨fun i hi => (hb.1 i hi).congr (h _ (Or.inl ⟨i, rfl⟩)),
      fun i h1 h2 => by rw [h _ (Or.inl ⟨i, rfl⟩), hb.2 i h1 h2]⟩
  · exact fun s d hb => downComp_spec A hA s d (y s) (S s) hb.1 hb.2
  · exact fun s hs => ⟨fun i hi => (hy s hs i hi).congr (g s _ (Or.inl ⟨i, rfl⟩)),
      (hS s hs).congr (g s _ (Or.inr rfl))⟩

end

/-! ## Commutation offsets -/

/-- The commutation offsets of a configuration are exactly `xs`. -/
def Offsets (A : Arith) (d : Items) (xs : List ℚ) : Prop :=
  ∀ i, number A d [.n "motor", .n "offset", .i i] = (xs[i]?).map fun x => .ok (.fin x)

theorem get_isSome_mem {d : Items} {k : Key} {v : Val} (h : get d k = some v) :
    k ∈ d.map Prod.fst := by
  induction d with
  | nil => cases h
  | cons e d ih =>
    rw [get_cons] at h
    split at h
    · next hk => simp [hk]
    · exact List.mem_cons_of_mem _ (ih h)

theorem Offsets.get {A : Arith} {d : Items} {xs : List ℚ} (h : Offsets A d xs) (i : Nat) :
    (∀ hi : i < xs.length, ∃ v, get d (kOffset i) = some v ∧ toFloat A v = .ok (.fin xs[i])) ∧
    (xs.length ≤ i → Tool.get d (kOffset i) = none) := by
  have := h i
  change number A d (kOffset i) = _ at this
  unfold number at this
  constructor
  · intro hi
    rw [List.getElem?_eq_getElem hi] at this
    cases hg : Tool.get d (kOffset i) with
    | none => rw [hg] at this; cases this
    | some v => rw [hg] at this; exact ⟨v, rfl, Option.some.inj this⟩
  · intro hi
    rw [List.getElem?_eq_none hi] at this
    simpa using this

theorem Offsets.length_le {A : Arith} {d : Items} {xs : List ℚ} (h : Offsets A d xs) :
    xs.length ≤ d.length := by
  have h1 : ((List.range xs.length).map kOffset).Nodup :=
    List.Nodup.map kOffset_injective List.nodup_range
  have h2 : (List.range xs.length).map kOffset ⊆ d.map Prod.fst := by
    intro k hk
    obtain ⟨i, hi, rfl⟩ := List.mem_map.1 hk
    obtain ⟨v, hv, _⟩ := (h.get i).1 (List.mem_range.1 hi)
    exact get_isSome_mem hv
  have := (List.Nodup.subperm h1 h2).length_le
  simpa using this

theorem readOffsets_eq (A : Arith) (d : Items) (xs : List ℚ) (h : Offsets A d xs) (fuel i : Nat)
    (hf : xs.length < fuel + i) : readOffsets A d fuel i = .ok ((xs.drop i).map .fin) := by
  induction fuel generalizing i with
  | zero => rw [List.drop_eq_nil_of_le (by omega)]; rfl
  | succ fuel ih =>
    unfold readOffsets
    by_cases hi : i < xs.length
    · obtain ⟨v, hv, hx⟩ := (h.get i).1 hi
      simp only [hv, hx, ok_bind, ih (i + 1) (by omega)]
      rw [List.drop_eq_getElem_cons hi]
      rfl
    · simp only [(h.get i).2 (by omega)]
      rw [List.drop_eq_nil_of_le (by omega)]; rfl

theorem congruent_eq {P : ℚ} (hP : 1 / 100 < P) {xs ys : List ℚ} (h : Congruent P xs ys)
    (hn : ((ys.zip xs).any fun p => decide (|p.1 - p.2| > 1 / 100)) = false) : ys = xs := by
  induction h with
  | nil => rfl
  | @cons x y xs ys a _ ih =>
    obtain ⟨k, rfl⟩ := a
    simp only [List.zip_cons_cons, List.any_cons, Bool.or_eq_false_iff, decide_eq_false_iff_not,
      not_lt] at hn
    rw [ih hn.2]
    have h1 : |(k : ℚ)| * P ≤ 1 / 100 := by
      have := hn.1
      rw [show x - k * P - x = -(k * P) by ring, abs_neg, abs_mul, abs_of_pos (by linarith : 0 < P)] at this
      exact this
    have : k = 0 := by
      by_contra hk
      have : (1 : ℚ) ≤ |(k : ℚ)| := by
        rw [← Int.cast_abs]; exact_mod_cast Int.one_le_abs hk
      nlinarith
    simp [this]

theorem up0109a_offsets (A : Arith) (P : ℚ) (hA : Wraps A P) (hP : 1 / 100 < P) (d : Items)
    (xs : List ℚ) (hx : xs ≠ []) (h : Offsets A d xs) :
    ∃ ys : List ℚ, Congruent P xs ys ∧ Smooth P ys ∧ |ys.sum / ys.length| ≤ P / 2 ∧
      ∃ d1, up0109a A d = .ok d1 ∧ Offsets A d1 ys ∧
        ∀ k, (∀ i, k ≠ kOffset i) → get d1 k = get d k := by
  obtain ⟨ys, h1, h2, h3, h4⟩ := C27_offsets_exact A P hA xs hx
  have hl : ys.length = xs.length := (List.Forall₂.length_eq h2).symm
  refine ⟨ys, h2, h3, h4, ?_⟩
  unfold up0109a
  rw [readOffsets_eq A d xs h _ 0 (by have := h.length_le; omega), ok_bind, List.drop_zero, h1,
    ok_bind]
  have hz : (((ys.map Fl.fin).zip (xs.map Fl.fin)).any fun p =>
      fgt (fabs (fsub A p.1 p.2)) (A.rnd (1 / 100))) =
      (ys.zip xs).any fun p => decide (|p.1 - p.2| > 1 / 100) := by
    rw [List.zip_map, List.any_map]
    congr 1
    funext p
    simp only [Function.comp, Prod.map, hA.rnd]
    have : fsub A (.fin p.1) (.fin p.2) = .fin (p.1 - p.2) := by
      unfold fsub fadd Fl.neg; simp only [hA.rnd]; congr 1; ring
    rw [this]; rfl
  rw [hz]
  split
  · refine ⟨_, rfl, ?_, fun k hk => get_foldl _ _ _ (fun p _ e => by rw [get_set, if_neg (hk _)]) rfl⟩
    intro i
    unfold number
    change (get _ (kOffset i)).map _ = _
    have e : (ys.map Fl.fin).zipIdx =
        (List.range ys.length).map fun i => ((ys.map Fl.fin).getD i .nan, i) := by
      apply List.ext_getElem
      · simp
      · intro j h1 h2
        have : j < ys.length := by simpa using h1
        simp [List.getD_eq_getElem?_getD, this]
    rw [e, List.foldl_map, get_foldl_set kOffset kOffset_injective
      (fun i => .flt ((ys.map Fl.fin).getD i .nan))]
    by_cases hi : i < ys.length
    · rw [if_pos (List.mem_range.2 hi)]
      simp [List.getD_eq_getElem?_getD, hi, toFloat]
    · rw [if_neg (by simpa using hi), (h.get i).2 (by omega), List.getElem?_eq_none (by omega)]
      rfl
  · next hn =>
    refine ⟨d, rfl, ?_, fun _ _ => rfl⟩
    rw [congruent_eq hP h2 (by simpa using hn)]
    exact h

theorem keeps_up0109b_offset (A : Arith) (d : Items) (i : Nat) :
    Keeps (kOffset i) (up0109b A d) d := by
  have h1 : kOffset i ≠ kThermistor := by simp [kOffset, kThermistor]
  have h2 (s j : Nat) : kOffset i ≠ kComp s j := by simp [kOffset, kComp]
  have h3 (s : Nat) : kOffset i ≠ kSource s "compensation_scale" := by simp [kOffset, kSource]
  have hc (s : Nat) (d : Items) : Keeps (kOffset i) (upComp A s d) d := by
    unfold upComp
    have := h3 s
    keeps
    exact get_foldl _ _ _ (fun p _ e => by rw [get_set, if_neg (h2 s p.2)]) rfl
  unfold up0109b
  keeps
  all_goals exact (hc _ _).trans (by keeps)

/-- C27, exact arithmetic: after an upgrade to 0x0109 the commutation offsets
describe the same angles, without jumps and centred on zero. -/
theorem C27_offsets_upgrade (A : Arith) (P : ℚ) (hA : Wraps A P) (hP : 1 / 100 < P) (family : Int)
    (d d1 : Items) (xs : List ℚ) (hx : xs ≠ []) (h : Offsets A d xs)
    (up : migrate A 0x0108 0x0109 family d = .ok d1) :
    ∃ ys : List ℚ, Congruent P xs ys ∧ Smooth P ys ∧ |ys.sum / ys.length| ≤ P / 2 ∧
      Offsets A d1 ys := by
  rw [migrate_up0109] at up
  obtain ⟨ys, a, b, c, e, h1, f, -⟩ := up0109a_offsets A P hA hP d xs hx h
  rw [h1, ok_bind] at up
  have h2 := up
  refine ⟨ys, a, b, c, fun i => ?_⟩
  have := f i
  change number A e (kOffset i) = _ at this
  change number A d1 (kOffset i) = _
  unfold number at this ⊢
  rw [keeps_up0109b_offset A e i d1 h2, this]

/-- C27, exact arithmetic: an upgrade to 0x0109 and back succeeds and changes
no bin of a compensation table by more than 1/127 of the largest bin.  `d1'` is
what the firmware reports between the two, with the tables as they were written. -/
theorem C27_compensation (A : Arith) (P : ℚ) (hA : Wraps A P) (hP : 1 / 100 < P) (family : Int)
    (d : Items) (xs : List ℚ) (hxs : xs ≠ []) (ho : Offsets A d xs) (en : Int)
    (hen : intOr d [.n "servo", .n "enable_motor_temperature"] 0 = .ok en)
    (x : Nat → Nat → ℚ) (hx : ∀ s < 3, Bins A d s 32 (x s)) :
    ∃ d1, migrate A 0x0108 0x0109 family d = .ok d1 ∧
    ∀ d1', (∀ s < 3, ∀ k, isTable s k → get d1' k = get d1 k) → Downgradable A d1' →
    ∃ d2, migrate A 0x0109 0x0108 family d1' = .ok d2 ∧
    ∀ s < 3, ∃ S, (∃ i < 32, S = |x s i|) ∧ (∀ i < 32, |x s i| ≤ S) ∧
      ∀ i < 32, ∃ y, Holds A d2 [.n "motor_position", .n "sources", .i s, .n "compensation_table", .i i]
        (.fin y) ∧ |y - x s i| ≤ S / 127 := by
  have hr := hA.rnd
  obtain ⟨ys, -, -, -, e, he, -, hk⟩ := up0109a_offsets A P hA hP d xs hxs ho
  obtain ⟨d1, h1, key⟩ := upgrade_table A hr en e x
    (fun s hs i hi => (hx s hs i hi).congr (keeps_up0109a_table A d s _ (Or.inl ⟨i, rfl⟩) e he))
    (by
      have : get e kEnableTemp = get d kEnableTemp := hk _ fun i => by simp [kOffset, kEnableTemp]
      unfold intOr at hen ⊢
      rwa [this])
  refine ⟨d1, by rw [migrate_up0109, he, ok_bind, h1], fun d1' same hd1 => ?_⟩
  choose! S v hu using key
  have hc (s i : Nat) : isTable s (kComp s i) := Or.inl ⟨i, rfl⟩
  have hd (s : Nat) : isTable s (kSource s "compensation_scale") := Or.inr rfl
  obtain ⟨d2, h2, hb⟩ := downgrade_table A hr d1' hd1 (fun s i => (v s i : ℚ)) S
    (fun s hs i hi => ⟨.int (v s i), by rw [same s hs _ (hc _ _), (hu s hs).2.2.1 i hi], by
      simp only [toFloat, hr]⟩)
    (fun s hs => ⟨.flt (.fin (S s)), by rw [same s hs _ (hd _), (hu s hs).2.2.2.1], rfl⟩)
  refine ⟨d2, by rw [migrate_down0109, h2], fun s hs => ?_⟩
  obtain ⟨a1, a2, -, -, a5⟩ := hu s hs
  refine ⟨S s, a2, a1, fun i hi => ⟨_, (hb s hs).1 i hi, ?_⟩⟩
  dsimp only
  rw [a5 i hi]
  have hle := a1 i hi
  by_cases h0 : S s = 0
  · rw [h0] at hle
    have : x s i = 0 := abs_eq_zero.1 (le_antisymm hle (abs_nonneg _))
    simp [h0, this]
  · have hp : 0 < S s := lt_of_le_of_ne (le_trans (abs_nonneg _) hle) (Ne.symm h0)
    rw [if_neg h0]
    have e := trunc_err (127 * x s i / S s)
    have : (trunc (127 * x s i / S s) : ℚ) * (S s / 127) - x s i =
        ((trunc (127 * x s i / S s) : ℚ) - 127 * x s i / S s) * (S s / 127) := by
      field_simp
    rw [this, abs_mul, abs_of_pos (by positivity : 0 < S s / 127)]
    have hq : 0 < S s / 127 := by positivity
    nlinarith

/-- Three tables, and offsets that jump. -/
def example0108 : Items :=
  [(kOffset 0, .int 5), (kOffset 1, .int (-1)), (kOffset 2, .int 0)] ++
    ((List.range 3).map fun s => (List.range 32).map fun i =>
      (kComp s i, Val.flt (.fin (if i = 4 then 1 / 2 else 1 / 7)))).flatten

/-- A concrete case of `C27_compensation` and `C27_offsets_upgrade`. -/
example : Offsets (exactWrap 6) example0108 [5, -1, 0] ∧
    intOr example0108 kEnableTemp 0 = .ok 0 ∧
    ∀ s < 3, Bins (exactWrap 6) example0108 s 32 fun i => if i = 4 then 1 / 2 else 1 / 7 := by
  refine ⟨fun i => ?_, by decide +kernel, ?_⟩
  · match i with
    | 0 => decide +kernel
    | 1 => decide +kernel
    | 2 => decide +kernel
    | i + 3 =>
      have : get example0108 (kOffset (i + 3)) = none := by
        unfold example0108
        rw [get_append]
        have h1 : get [(kOffset 0, Val.int 5), (kOffset 1, .int (-1)), (kOffset 2, .int 0)]
            (kOffset (i + 3)) = none := by
          simp [get_cons, get_nil, kOffset]
        rw [h1, Option.none_or]
        cases hg : get ((List.range 3).map fun s => (List.range 32).map fun i =>
            (kComp s i, Val.flt (.fin (if i = 4 then 1 / 2 else 1 / 7)))).flatten (kOffset (i + 3)) with
        | none => rfl
        | some v =>
          obtain ⟨e, he, hk⟩ := List.mem_map.1 (get_isSome_mem hg)
          obtain ⟨l, hl, he⟩ := List.mem_flatten.1 he
          obtain ⟨s, -, rfl⟩ := List.mem_map.1 hl
          obtain ⟨j, -, rfl⟩ := List.mem_map.1 he
          simp [kComp, kOffset] at hk
      change number _ _ (kOffset (i + 3)) = _
      unfold number
      rw [this]; rfl
  · have h : ∀ s < 3, ∀ i < 32, get example0108 (kComp s i) =
        some (.flt (.fin (if i = 4 then 1 / 2 else 1 / 7))) := by decide +kernel
    exact fun s hs i hi => ⟨_, h s hs i hi, rfl⟩

end Verif.Tool
