import Verif.Cxx.Sim
import Verif.Cxx.Spec

/-! # Queries of both libraries -/

namespace Verif.Cxx

open Verif Verif.Float Verif.Multiplex Verif.Multiplex.Spec Verif.Commands Verif.Commands.Spec
  Verif.Cxx.Spec

/-- The bytes and the reply size that a query block adds. -/
def block (start : Nat) (rs : List (Option Res)) : Bytes × Nat :=
  (enc 0x10 start none (noValues rs), encSize 0x10 start none rs)

/-- A frame with the given bytes and reply size, if it fits. -/
def fit (b : Bytes) (n : Nat) : Except Halt (Bytes × Nat) :=
  if 64 < b.length then .error .abort else .ok (b, n % 256)

/-- A C++ query builder that adds the given bytes and reply size. -/
def Adds (m : Bytes → Except Halt (Bytes × Nat)) (q : Bytes × Nat) : Prop :=
  ∀ f : Bytes, f.length ≤ 64 → m f = fit (f ++ q.1) q.2

theorem runQuery_enc (buf : Bytes) (start : Nat) (rs : List (Option Res)) (hrun : ¬ LongRun rs) :
    ∃ c, (WriteCombiner.init buf 0x10 start rs).run (List.replicate rs.length (.ok [])) = .ok c ∧
      c.buf = buf ++ (block start rs).1 ∧ c.replySize = (block start rs).2 := by
  obtain ⟨c, h1, h2, h3⟩ := emit_ok (Or.inr (Or.inl rfl)) buf start (noValues rs) (by simpa using hrun)
  unfold emit at h1
  rw [map_noValues, noValues_fst] at h1
  rw [noValues_fst] at h3
  exact ⟨c, h1, h2, h3⟩

theorem queryBlock_enc (buf : Bytes) (start : Nat) (rs : List (Option Res)) (hrun : ¬ LongRun rs) :
    queryBlock buf start rs = .ok (buf ++ (block start rs).1, (block start rs).2) := by
  obtain ⟨c, h1, h2, h3⟩ := runQuery_enc buf start rs hrun
  have h1' : (WriteCombiner.init buf 0x10 start rs).runQuery = .ok c := h1
  unfold queryBlock
  rw [h1', ← h2, ← h3]; rfl

theorem readBlock_adds (start : Nat) (rs : List (Option Res)) (hrun : ¬ LongRun rs) :
    Adds (fun f => readBlock f start rs) (block start rs) := by
  intro f hf
  obtain ⟨c, h1, h2, h3⟩ := runQuery_enc f start rs hrun
  set es : List Pair := rs.map fun r => (r, .ok [], Except.ok) with hes
  have e1 : es.map (·.1) = rs := by simp [hes, Function.comp_def]
  have e2 : es.map (·.2.1) = List.replicate rs.length (.ok []) := by
    simp [hes, Function.comp_def, List.map_const']
  have e3 : es.map (·.2.2) = List.replicate rs.length Except.ok := by
    simp [hes, Function.comp_def, List.map_const']
  have hs := run_sim (Or.inr (Or.inl rfl) : BaseOk 0x10) es [] (WriteCombiner.init f 0x10 start rs)
    (Combiner.init 0x10 start rs) rfl rfl (by simp [WriteCombiner.init, e1]) rfl
    (by rw [e1]; exact (runsOk_iff _ _ (by simp [WriteCombiner.init])).mpr hrun) hf
    (by
      intro e he _ g hg
      simp only [hes, List.mem_map] at he
      obtain ⟨r, _, rfl⟩ := he
      exact (write_nil hg).symm)
  rw [e2, e3, h1] at hs
  simp only [readBlock]
  rw [show (WriteCombiner.init f 0x10 start rs).buf = f from rfl] at hs
  rw [hs]
  simp only [capRun, fit]
  rw [h2, h3]

/-! ## Sizes -/

def numSome : List (Option Res) → Nat
  | [] => 0
  | none :: rs => numSome rs
  | some _ :: rs => numSome rs + 1

theorem numSome_append (a b : List (Option Res)) : numSome (a ++ b) = numSome a + numSome b := by
  induction a with
  | nil => simp [numSome]
  | cons x a ih => cases x <;> (simp only [List.cons_append, numSome, ih]; try omega)

theorem numSome_replicate (n : Nat) (r : Res) : numSome (List.replicate n (some r)) = n := by
  induction n with
  | zero => rfl
  | succ n ih => simp [List.replicate_succ, numSome, ih]

theorem numSome_le (rs : List (Option Res)) : numSome rs ≤ rs.length := by
  induction rs with
  | nil => simp [numSome]
  | cons x rs ih => cases x <;> simp only [numSome, List.length_cons] <;> omega

theorem not_longRun {rs : List (Option Res)} (h : numSome rs < 128) : ¬ LongRun rs := by
  rintro ⟨r, pre, post, rfl⟩
  rw [numSome_append, numSome_append, numSome_replicate] at h
  omega

theorem varuint_length_le (k : Nat) (v : Nat) (hk : 0 < k) (h : v < 128 ^ k) :
    (Multiplex.writeVaruint v).length ≤ k := by
  induction k generalizing v with
  | zero => omega
  | succ k ih =>
    by_cases hv : v < 128
    · rw [writeVaruint_small hv]; simp
    · rw [writeVaruint_large (by omega)]
      cases k with
      | zero => simp at h; omega
      | succ k =>
        have := ih (v / 128) (by omega) (by rw [Nat.pow_succ] at h; omega)
        simp only [List.length_cons]; omega

theorem header_length_le (base : Nat) (r : Res) (count reg k : Nat)
    (hr : (Multiplex.writeVaruint reg).length ≤ k) :
    (header base r count reg).length ≤ k + if count ≤ 3 then 1 else 2 := by
  unfold header
  split <;> simp only [List.length_append, List.length_cons, List.length_nil] <;> omega

theorem size_le (r : Res) : r.size ≤ 4 := by cases r <;> decide

/-- Entries that were paid for by the block they continue. -/
def paid (prev : Option (Option Res)) (rs : List (Option Res)) : Nat :=
  match prev with
  | some (some r) => countRun r rs
  | _ => 0

theorem encSize_le (k base : Nat) (hk : 0 < k) (rs : List (Option Res)) (reg : Nat)
    (prev : Option (Option Res)) (h : reg + rs.length ≤ 128 ^ k) :
    encSize base reg prev rs + (k + 5) * paid prev rs ≤ (k + 5) * numSome rs := by
  induction rs generalizing reg prev with
  | nil =>
    rcases prev with _ | _ | r <;> simp [encSize, paid, numSome, countRun]
  | cons x rs ih =>
    simp only [List.length_cons] at h
    cases x with
    | none =>
      have := ih (reg + 1) (some none) (by omega)
      have hp : paid prev (none :: rs) = 0 := by
        rcases prev with _ | _ | r <;> simp [paid, countRun]
      rw [hp]
      simp only [encSize, numSome]
      have hz : paid (some none) rs = 0 := rfl
      rw [hz] at this
      exact this
    | some r =>
      have := ih (reg + 1) (some (some r)) (by omega)
      simp only [paid] at this
      by_cases hp : prev = some (some r)
      · subst hp
        simp only [encSize, paid, countRun, numSome, if_true]
        simp only [Nat.mul_add] at *
        omega
      · have hz : paid prev (some r :: rs) = 0 := by
          rcases prev with _ | _ | r' <;> simp only [paid, countRun]
          rw [if_neg]
          intro h2; apply hp; rw [h2]
        have hh := header_length_le base r (1 + countRun r rs) reg k
          (varuint_length_le k reg hk (by omega))
        have hs : (1 + countRun r rs) * r.size ≤ (1 + countRun r rs) * 4 :=
          Nat.mul_le_mul_left _ (size_le r)
        have hc : k ≤ k * (1 + countRun r rs) := Nat.le_mul_of_pos_right _ (by omega)
        simp only [encSize, numSome, hz, if_neg hp]
        simp only [Nat.mul_add, Nat.add_mul, Nat.mul_one, Nat.one_mul, Nat.mul_zero] at *
        split at hh <;> omega

/-! ## Extra registers -/

theorem numSome_spread (n reg : Nat) (l : List (Nat × Option Res)) :
    numSome (spread n reg l) ≤ l.length := by
  induction n generalizing reg l with
  | zero => simp [spread, numSome]
  | succ n ih =>
    cases l with
    | nil => simpa [spread, numSome] using ih (reg + 1) []
    | cons e es =>
      simp only [spread]
      split
      · have := ih (reg + 1) es
        cases e.2 <;> simp only [numSome, List.length_cons] <;> omega
      · simpa only [numSome] using ih (reg + 1) (e :: es)

theorem spread_eq (n reg : Nat) (l : List (Nat × Option Res))
    (hs : l.Pairwise (fun x y => x.1 < y.1)) (hlo : ∀ e ∈ l, reg ≤ e.1) :
    spread n reg l = (List.range n).map fun i => getD l (reg + i) := by
  induction n generalizing reg l with
  | zero => rfl
  | succ n ih =>
    rw [List.range_succ_eq_map, List.map_cons, List.map_map]
    have hcongr : ∀ i, ((fun i => getD l (reg + i)) ∘ Nat.succ) i = getD l (reg + 1 + i) := by
      intro i; simp only [Function.comp]; congr 1; omega
    rw [List.map_congr_left (fun i _ => hcongr i)]
    cases l with
    | nil => simp only [spread]; rw [ih _ [] .nil (by simp)]; rfl
    | cons e es =>
      rw [List.pairwise_cons] at hs
      simp only [spread]
      split
      · next he =>
        have hes : ∀ x ∈ es, reg + 1 ≤ x.1 := fun x hx => by have := hs.1 x hx; omega
        rw [ih (reg + 1) es hs.2 hes]
        congr 1
        · simp [getD, he]
        · apply List.map_congr_left
          intro i _
          simp only [getD, List.find?_cons]
          rw [show (decide (e.1 = reg + 1 + i)) = false by simp; omega]
      · next he =>
        have hall : ∀ x ∈ e :: es, reg + 1 ≤ x.1 := by
          intro x hx
          have h1 := hlo e (by simp)
          rcases List.mem_cons.mp hx with rfl | hx
          · omega
          · have := hs.1 x hx; omega
        rw [ih (reg + 1) (e :: es) (List.pairwise_cons.mpr hs) hall]
        congr 1
        have : (e :: es).find? (fun x => decide (x.1 = reg + 0)) = none := by
          rw [List.find?_eq_none]
          intro x hx
          have := hall x hx
          simp; omega
        simp only [getD, this]

theorem sorted_keys {l : List (Nat × Option Res)} (hs : l.Pairwise (fun x y => x.1 < y.1)) :
    (l.map Prod.fst).Nodup := by
  rw [List.Nodup, List.pairwise_map]
  exact hs.imp (fun h => Nat.ne_of_lt h)

theorem getD_perm {l d : List (Nat × Option Res)} (hp : l.Perm d) (hk : (l.map Prod.fst).Nodup) (i : Nat) :
    getD d i = getD l i := by
  have hk' : (d.map Prod.fst).Nodup := (hp.map Prod.fst).nodup_iff.mp hk
  have : ∀ r, getD d i = some r ↔ getD l i = some r := by
    intro r
    rw [getD_some hk, getD_some hk', hp.mem_iff]
  cases hd : getD d i with
  | some r => exact ((this r).mp hd).symm
  | none =>
    cases hl : getD l i with
    | none => rfl
    | some r => rw [(this r).mpr hl] at hd; cases hd

theorem foldl_min_mem (ks : List Nat) (k : Nat) : ks.foldl min k ∈ k :: ks := by
  induction ks generalizing k with
  | nil => simp
  | cons a ks ih =>
    have := ih (min k a)
    simp only [List.foldl_cons, List.mem_cons] at this ⊢
    rcases this with h | h
    · rcases Nat.le_total k a with hh | hh
      · rw [Nat.min_eq_left hh] at h ⊢; exact Or.inl h
      · rw [Nat.min_eq_right hh] at h ⊢; exact Or.inr (Or.inl h)
    · exact Or.inr (Or.inr h)

theorem dictRange_of {d : List (Nat × Option Res)} {lo hi : Nat} (hlo : lo ∈ d.map Prod.fst)
    (hhi : hi ∈ d.map Prod.fst) (hall : ∀ k ∈ d.map Prod.fst, lo ≤ k ∧ k ≤ hi) :
    dictRange d = some (lo, (List.range (hi + 1 - lo)).map fun i => getD d (lo + i)) := by
  unfold dictRange
  cases hd : d.map Prod.fst with
  | nil => rw [hd] at hlo; cases hlo
  | cons k ks =>
    rw [hd] at hlo hhi hall
    have h1 : ks.foldl min k = lo := by
      have := hall _ (foldl_min_mem ks k)
      have h2 := foldl_min_le ks k
      rcases List.mem_cons.mp hlo with h | h
      · omega
      · have := h2.2 _ h; omega
    have h2 : ks.foldl max k = hi := by
      have := hall _ (foldl_max_mem ks k)
      have h2 := le_foldl_max ks k
      rcases List.mem_cons.mp hhi with h | h
      · omega
      · have := h2.2 _ h; omega
    simp only [h1, h2]

theorem sorted_last {l : List (Nat × Option Res)} (hs : l.Pairwise (fun x y => x.1 < y.1))
    {z : Nat × Option Res} (hz : l.getLast? = some z) : ∀ e ∈ l, e.1 ≤ z.1 := by
  induction l with
  | nil => cases hz
  | cons a l ih =>
    rw [List.pairwise_cons] at hs
    intro e he
    cases l with
    | nil =>
      simp at hz he; subst hz; subst he; exact Nat.le_refl _
    | cons b l =>
      rw [List.getLast?_cons_cons] at hz
      have hzm : z ∈ b :: l := List.mem_of_getLast? hz
      rcases List.mem_cons.mp he with rfl | he
      · exact Nat.le_of_lt (hs.1 z hzm)
      · exact ih hs.2 hz e he

/-- The extra registers: both libraries ask for the same block. -/
theorem extra_same {l d : List (Nat × Option Res)} (h : SameExtra l d) :
    (l = [] ∧ d = []) ∨ ∃ lo rs, dictRange d = some (lo, rs) ∧ numSome rs ≤ 16 ∧
      lo + rs.length ≤ 128 ^ 3 ∧ ∀ f, makeItems f l = readBlock f lo rs := by
  cases hl : l with
  | nil =>
    left
    have := h.same
    rw [hl] at this
    exact ⟨rfl, List.Perm.nil_eq this |>.symm⟩
  | cons a l' =>
    right
    obtain ⟨z, hz⟩ : ∃ z, l.getLast? = some z := by
      rw [hl]; exact ⟨_, List.getLast?_eq_some_getLast (by simp)⟩
    have ha : a ∈ l := by rw [hl]; simp
    have hzm : z ∈ l := List.mem_of_getLast? hz
    have hfirst : ∀ e ∈ l, a.1 ≤ e.1 := by
      intro e he
      have hs := h.sorted
      rw [hl, List.pairwise_cons] at hs
      rw [hl] at he
      rcases List.mem_cons.mp he with rfl | he
      · exact Nat.le_refl _
      · exact Nat.le_of_lt (hs.1 e he)
    have hlast := sorted_last h.sorted hz
    have hk := sorted_keys h.sorted
    have hr := dictRange_of (d := d) (lo := a.1) (hi := z.1)
      (by rw [← (h.same.map Prod.fst).mem_iff]; exact List.mem_map_of_mem ha)
      (by rw [← (h.same.map Prod.fst).mem_iff]; exact List.mem_map_of_mem hzm)
      (by
        intro k hk
        rw [← (h.same.map Prod.fst).mem_iff] at hk
        obtain ⟨e, he, rfl⟩ := List.mem_map.mp hk
        exact ⟨hfirst e he, hlast e he⟩)
    have haz := hfirst z hzm
    have hwin := h.window z hzm a ha
    have hrange := h.range z hzm
    have hg : ((List.range (z.1 + 1 - a.1)).map fun i => getD d (a.1 + i))
        = spread (z.1 + 1 - a.1) a.1 l := by
      rw [spread_eq _ _ _ h.sorted hfirst]
      exact List.map_congr_left fun i _ => getD_perm h.same hk _
    refine ⟨a.1, _, hr, ?_, ?_, ?_⟩
    · rw [hg]; exact Nat.le_trans (numSome_spread _ _ _) h.size
    · simp only [List.length_map, List.length_range]; norm_num; omega
    · intro f
      rw [hg, ← hl]
      unfold makeItems
      rw [hz, show l.head? = some a by rw [hl]; rfl]
      have hreq : (((z.1 : Int) - a.1 + 1) % 65536).toNat = z.1 + 1 - a.1 := by omega
      simp only [hreq]
      rw [if_neg (by omega)]

/-! ## Whole queries -/

theorem fit_bind {b b' : Bytes} {n n' : Nat} {k : Bytes × Nat → Except Halt (Bytes × Nat)}
    (hk : b.length ≤ 64 → k (b, n % 256) = fit (b ++ b') n') : (fit b n >>= k) = fit (b ++ b') n' := by
  unfold fit at *
  by_cases h : 64 < b.length
  · rw [if_pos h, if_pos (by simp only [List.length_append]; omega)]; rfl
  · rw [if_neg h]
    exact hk (by omega)

theorem query_same {f : QueryFormat} {q : QueryResolution} (h : SameQuery f q) :
    ∃ b n, n < 256 ∧ makeQueryData q = .ok (b, n) ∧ Adds (fun g => makeQuery g f) (b, n) := by
  set r1 := [q.mode, q.position, q.velocity, q.torque, q.q_current, q.d_current, q.abs_position,
    q.power] with hr1
  set r2 := [q.motor_temperature, q.trajectory_complete, q.home_state, q.voltage, q.temperature,
    q.fault] with hr2
  set r3 := [q.aux1_gpio, q.aux2_gpio] with hr3
  have l1 : ¬ LongRun r1 := longRun_short (by simp [hr1])
  have l2 : ¬ LongRun r2 := longRun_short (by simp [hr2])
  have l3 : ¬ LongRun r3 := longRun_short (by simp [hr3])
  have n1 : (block 0 r1).2 ≤ 48 := by
    have := encSize_le 1 0x10 (by omega) r1 0 none (by simp [hr1])
    have h8 : numSome r1 ≤ 8 := numSome_le r1
    simp only [block]; omega
  have n2 : (block 0x00a r2).2 ≤ 36 := by
    have := encSize_le 1 0x10 (by omega) r2 0x00a none (by simp [hr2])
    have h8 : numSome r2 ≤ 6 := numSome_le r2
    simp only [block]; omega
  have n3 : (block 0x05e r3).2 ≤ 12 := by
    have := encSize_le 1 0x10 (by omega) r3 0x05e none (by simp [hr3])
    have h8 : numSome r3 ≤ 2 := numSome_le r3
    simp only [block]; omega
  have hm : mergeResolutions q.rezero_state q.home_state = q.home_state := by
    rw [h.rezero_state]; rfl
  have hfmt : ∀ g, makeQuery g f = (readBlock g 0 r1 >>= fun p1 => readBlock p1.1 0x00a r2 >>= fun p2 =>
      readBlock p2.1 0x05e r3 >>= fun p3 => makeItems p3.1 f.extra >>= fun p4 =>
      .ok (p4.1, (p1.2 + p2.2 + p3.2 + p4.2) % 256)) := by
    intro g
    unfold makeQuery
    rw [h.mode, h.position, h.velocity, h.torque, h.q_current, h.d_current, h.abs_position, h.power,
      h.motor_temperature, h.trajectory_complete, h.home_state, h.voltage, h.temperature, h.fault,
      h.aux1_gpio, h.aux2_gpio]
  have a1 := readBlock_adds 0 r1 l1
  have a2 := readBlock_adds 0x00a r2 l2
  have a3 := readBlock_adds 0x05e r3 l3
  rcases extra_same h.extra with ⟨e1, e2⟩ | ⟨lo, rs, e1, e2, e3, e4⟩
  · refine ⟨(block 0 r1).1 ++ (block 0x00a r2).1 ++ (block 0x05e r3).1,
      (block 0 r1).2 + (block 0x00a r2).2 + (block 0x05e r3).2, by omega, ?_, ?_⟩
    · unfold makeQueryData
      rw [hm, queryBlock_enc _ _ r1 l1]
      simp only [Except.bind, bind]
      rw [queryBlock_enc _ _ r2 l2]
      simp only
      rw [queryBlock_enc _ _ r3 l3]
      simp only
      rw [e2, dictRange_nil]
      rfl
    · intro g hg
      show makeQuery g f = _
      rw [hfmt, show readBlock g 0 r1 = _ from a1 g hg, ← List.append_assoc, ← List.append_assoc,
        List.append_assoc (g ++ _)]
      refine fit_bind fun h1 => ?_
      show (readBlock _ 0x00a r2 >>= _) = _
      rw [show readBlock _ 0x00a r2 = _ from a2 _ h1, ← List.append_assoc]
      refine fit_bind fun h2 => ?_
      show (readBlock _ 0x05e r3 >>= _) = _
      rw [show readBlock _ 0x05e r3 = _ from a3 _ h2]
      unfold fit
      split
      · rfl
      · rw [e1]
        show Except.ok _ = Except.ok _
        simp only [Except.ok.injEq, Prod.mk.injEq, true_and]
        omega
  · have n4 : (block lo rs).2 ≤ 128 := by
      have := encSize_le 3 0x10 (by omega) rs lo none e3
      simp only [block]; omega
    have l4 : ¬ LongRun rs := not_longRun (by omega)
    have a4 := readBlock_adds lo rs l4
    refine ⟨(block 0 r1).1 ++ (block 0x00a r2).1 ++ (block 0x05e r3).1 ++ (block lo rs).1,
      (block 0 r1).2 + (block 0x00a r2).2 + (block 0x05e r3).2 + (block lo rs).2, by omega, ?_, ?_⟩
    · unfold makeQueryData
      rw [hm, queryBlock_enc _ _ r1 l1]
      simp only [Except.bind, bind]
      rw [queryBlock_enc _ _ r2 l2]
      simp only
      rw [queryBlock_enc _ _ r3 l3]
      simp only
      rw [e1]
      simp only
      rw [queryBlock_enc _ _ rs l4]
      rfl
    · intro g hg
      show makeQuery g f = _
      rw [hfmt, show readBlock g 0 r1 = _ from a1 g hg]
      rw [show g ++ ((block 0 r1).1 ++ (block 0x00a r2).1 ++ (block 0x05e r3).1 ++ (block lo rs).1)
        = (g ++ (block 0 r1).1) ++ ((block 0x00a r2).1 ++ ((block 0x05e r3).1 ++ (block lo rs).1)) by
          simp only [List.append_assoc]]
      refine fit_bind fun h1 => ?_
      show (readBlock _ 0x00a r2 >>= _) = _
      rw [show readBlock _ 0x00a r2 = _ from a2 _ h1, ← List.append_assoc]
      refine fit_bind fun h2 => ?_
      show (readBlock _ 0x05e r3 >>= _) = _
      rw [show readBlock _ 0x05e r3 = _ from a3 _ h2, ← List.append_assoc]
      refine fit_bind fun h3 => ?_
      show (makeItems _ f.extra >>= _) = _
      rw [e4, show readBlock _ lo rs = _ from a4 _ h3]
      unfold fit
      split
      · rfl
      · show Except.ok _ = Except.ok _
        simp only [Except.ok.injEq, Prod.mk.injEq, true_and]
        omega

end Verif.Cxx
