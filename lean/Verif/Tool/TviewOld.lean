import Verif.Tool.Tview

/-!
# tview with controllers that refuse commands (C105)

A controller whose firmware does not know `conf list` is asked for `conf enumerate` instead; one that refuses
another command is not shown any more.
-/

namespace Verif.Tool.Tview

namespace Spec

/-- a line of `conf enumerate`: printable, ends with a character, cannot be taken for something else. -/
def Setting (l : Bs) : Prop :=
  (∃ i c, l = i ++ [c] ∧ 33 ≤ c) ∧ (∀ c ∈ l, 32 ≤ c ∧ c ≤ 126) ∧ ¬ tx "OK" <+: l ∧ ¬ tx "ERR" <+: l ∧ ¬ tx "emit " <+: l

/-- what a controller with old firmware sends: a refusal, its settings, the channels, the items. -/
def oldStream (e : Bs) (s : List Bs) (cs : List Channel) (is : List Item) : Bs :=
  line e ++ (s.flatMap (fun l => line l) ++ (line (tx "OK") ++ (cs.flatMap (fun c => line c.name) ++ (line (tx "OK") ++
  (cs.flatMap (fun c => blocked (tx "schema " ++ c.name) c.schema) ++ is.flatMap Item.bytes)))))

/-- what is seen of it. -/
def oldSeen (e : Bs) (s : List Bs) (cs : List Channel) (is : List Item) : List Ev :=
  [.send (tx "conf list"), .text e, .send (tx "conf enumerate")] ++ s.map (fun l => .text l) ++ [.text (tx "OK")] ++
  s.map (fun l => .enumerate l) ++
  [.send (tx "tel list")] ++ cs.map (fun c => .text c.name) ++ [.text (tx "OK")] ++
  cs.flatMap (fun c => [.send (tx "tel schema " ++ c.name), .text (tx "schema " ++ c.name),
    .channel c.name c.schema, .text (tx "<schema name=" ++ c.name ++ tx ">")]) ++
  is.flatMap (Item.seen (cs.map (·.name)))

end Spec

private theorem setting_line {l : Bs} (h1 : ∃ i c, l = i ++ [c] ∧ 33 ≤ c) (h2 : ∀ c ∈ l, 32 ≤ c ∧ c ≤ 126) : Line l [] := by
  refine ⟨?_, fun c hc => ?_, by simp⟩
  · obtain ⟨i, c, rfl, hc⟩ := h1
    have := h2 c (by simp)
    refine ⟨i, c, rfl, ?_⟩
    have : ∀ c : ℕ, c < 127 → 33 ≤ c → isWs c = false := by decide +kernel
    exact this c (by omega) hc
  · have := h2 c hc
    omega

private theorem strip_ne {l : Bs} {c : ℕ} (h : c ∈ l) (hc : isWsStr c = false) : (strip l).isEmpty = false := by
  rw [List.isEmpty_eq_false_iff]
  intro he
  rw [strip, List.reverse_eq_nil_iff, List.dropWhile_eq_nil_iff] at he
  have hd : l.dropWhile isWsStr ≠ [] := by
    intro hn
    rw [List.dropWhile_eq_nil_iff] at hn
    rw [hn c h] at hc
    cases hc
  have hh := List.head_dropWhile_not isWsStr hd
  rw [he _ (List.mem_reverse.2 (List.head_mem hd))] at hh
  cases hh

private theorem setting_kept {l : Bs} (h : Spec.Setting l) : (!(strip l).isEmpty) = true := by
  obtain ⟨⟨i, c, rfl, hc⟩, h2, -⟩ := h
  have := h2 c (by simp)
  have hw : ∀ c : ℕ, c < 127 → 33 ≤ c → isWsStr c = false := by decide +kernel
  rw [strip_ne (c := c) (by simp) (hw c (by omega) hc)]
  rfl

private theorem setting_step {l : Bs} (h : Spec.Setting l) (c : Cmd) (b : Bool) (hb : b = false → ¬ tx "schema " <+: l)
    (acc : List Bs) : dev.onLine (.cmd c b acc) l = (.cmd c true (acc ++ [l]), [.text l]) := by
  obtain ⟨-, -, h3, h4, h5⟩ := h
  have e5 : isPrefix (tx "emit ") l = false := by
    rw [← Bool.not_eq_true, isPrefix_iff]
    exact h5
  rw [text_of_not_emit e5]
  have : lineStep (.cmd c b acc) l = (.cmd c true (acc ++ [l]), []) := by
    rw [lineStep, if_neg (by
      rintro ⟨hbf, he | hs⟩
      · rw [e5] at he
        cases he
      · exact hb hbf (by rwa [isPrefix_iff] at hs)), if_neg (by rw [isPrefix_iff]; exact h4),
      if_neg (by rw [isPrefix_iff]; exact h3)]
  rw [this]

private theorem settings (c : Cmd) (s : List Bs) (rest : Bs) (hs : ∀ l ∈ s, Spec.Setting l) : ∀ (b : Bool) (acc : List Bs),
    (∀ l ∈ s.head?, b = false → ¬ tx "schema " <+: l) →
    ideal dev (.cmd c b acc) (s.flatMap (fun l => Spec.line l) ++ (Spec.line (tx "OK") ++ rest)) =
      pre (s.map (fun l => Ev.text l) ++ .text (tx "OK") :: (finished c (acc ++ s)).2)
        (ideal dev (finished c (acc ++ s)).1 rest) := by
  induction s with
  | nil =>
    intro b acc _
    have := ideal_listing c [] rest (by simp) b acc
    simpa using this
  | cons l s ih =>
    intro b acc hb
    have h := hs l (by simp)
    have hstep := setting_step h c b (hb l (by simp)) acc
    have := ideal_line dev (s := .cmd c b acc)
      (s.flatMap (fun l => Spec.line l) ++ (Spec.line (tx "OK") ++ rest)) (setting_line h.1 h.2.1) rfl (by rw [hstep]; rfl)
    rw [hstep, List.append_nil] at this
    rw [List.flatMap_cons, List.append_assoc, this]
    simp only
    rw [ih (fun x hx => hs x (by simp [hx])) true (acc ++ [l]) (fun _ _ h => by cases h), pre_pre, List.append_assoc]
    rfl

/-- a line that refuses. -/
private theorem refused_step {e : Bs} (h : tx "ERR" <+: e) (c : Cmd) (b : Bool) (acc : List Bs) :
    dev.onLine (.cmd c b acc) e = ((failed c).1, .text e :: (failed c).2) := by
  have hp : ∀ p : Bs, p.head? ≠ some 69 → p ≠ [] → isPrefix p e = false := by
    intro p hp hne
    rw [← Bool.not_eq_true, isPrefix_iff]
    intro hpe
    obtain ⟨t, rfl⟩ := h
    obtain ⟨a, p', rfl⟩ := List.exists_cons_of_ne_nil hne
    have e1 : tx "ERR" = [69, 82, 82] := by decide +kernel
    rw [e1] at hpe
    have := (List.cons_prefix_cons.1 hpe).1
    rw [this] at hp
    exact hp rfl
  rw [text_of_not_emit (hp _ (by decide +kernel) (by decide +kernel))]
  have : lineStep (.cmd c b acc) e = failed c := by
    rw [lineStep, if_neg (by
      rw [hp (tx "emit ") (by decide +kernel) (by decide +kernel), hp (tx "schema ") (by decide +kernel) (by decide +kernel)]
      simp), if_pos (by rw [isPrefix_iff]; exact h)]
  rw [this]

/-- a refusal that can be read as a line. -/
def Refusal (e : Bs) : Prop := tx "ERR" <+: e ∧ (∃ i c, e = i ++ [c] ∧ 33 ≤ c) ∧ ∀ c ∈ e, 32 ≤ c ∧ c ≤ 126

private theorem ideal_old {e : Bs} {s : List Bs} {cs : List Spec.Channel} {is : List Spec.Item} (he : Refusal e)
    (hs : ∀ l ∈ s, Spec.Setting l) (hf : ∀ l ∈ s.head?, ¬ tx "schema " <+: l) (h : Conforming [] cs is) :
    pre begun.out (ideal dev begun.at_ (begun.buf ++ Spec.oldStream e s cs is)) =
      (.run (cs.map (·.name)), [], Spec.oldSeen e s cs is) := by
  have hc : ∀ n ∈ cs.map (·.name), Spec.Listed n := by
    intro n hn
    obtain ⟨c, hc, rfl⟩ := List.mem_map.1 hn
    exact (h.channels c hc).1
  have hb : begun.at_ = .cmd .confList false [] := rfl
  have hbo : begun.out = [.send (tx "conf list")] := rfl
  have hbb : begun.buf = [] := rfl
  have sp : ∀ (a b : List Ev) (x : Ph × Bs × List Ev), pre (a ++ b) x = pre a (pre b x) :=
    fun a b x => (pre_pre a b x).symm
  have cons : ∀ (a : Ev) (b : List Ev), a :: b = [a] ++ b := fun _ _ => rfl
  have h1 := refused_step he.1 .confList false []
  have hfail : failed .confList = (.cmd .confEnumerate false [], [.send (tx "conf enumerate")]) := rfl
  have h2 := ideal_line dev (s := .cmd .confList false [])
    (s.flatMap (fun l => Spec.line l) ++ (Spec.line (tx "OK") ++ (cs.flatMap (fun c => Spec.line c.name) ++
      (Spec.line (tx "OK") ++ (cs.flatMap (fun c => Spec.blocked (tx "schema " ++ c.name) c.schema) ++
        is.flatMap Spec.Item.bytes))))) (setting_line he.2.1 he.2.2) rfl (by rw [h1]; rfl)
  rw [h1, List.append_nil, hfail] at h2
  simp only at h2
  have hfin : finished .confEnumerate s = (.cmd .telList false [], s.map Ev.enumerate ++ [.send (tx "tel list")]) := by
    simp only [finished]
    rw [List.filter_eq_self.2 fun l hl => setting_kept (hs l hl)]
    rfl
  have e2 : cs.flatMap (fun c => Spec.line c.name) = (cs.map (·.name)).flatMap (fun n => Spec.line n) := by
    rw [List.flatMap_map]
  unfold Spec.oldStream
  rw [hb, hbo, hbb, List.nil_append, h2, settings .confEnumerate s _ hs false [] (fun l hl _ => hf l hl), List.nil_append,
    hfin, e2]
  simp only
  rw [ideal_listing .telList _ _ hc, List.nil_append, finished_telList _ hc,
    cons (.text (tx "OK")) (nextChannel [] _).2, sp _ ([Ev.text (tx "OK")] ++ (nextChannel [] _).2),
    sp [Ev.text (tx "OK")] (nextChannel [] _).2,
    ideal_channels cs _ (fun c hx => ⟨(h.channels c hx).1.1, (h.channels c hx).2⟩), List.nil_append,
    ideal_items _ _ h.items]
  have e3 : cs.flatMap channelSeen = cs.flatMap (fun c => [Ev.send (tx "tel schema " ++ c.name),
      .text (tx "schema " ++ c.name), .channel c.name c.schema, .text (tx "<schema name=" ++ c.name ++ tx ">")]) := by
    have : channelSeen = fun c : Spec.Channel => [Ev.send (tx "tel schema " ++ c.name),
      .text (tx "schema " ++ c.name), .channel c.name c.schema, .text (tx "<schema name=" ++ c.name ++ tx ">")] := by
      funext c
      simp only [channelSeen, List.append_assoc]
    rw [this]
  rw [e3]
  simp only [pre, Spec.oldSeen, List.map_map, List.append_assoc, List.cons_append, List.nil_append]
  rfl

/-- **C105, old firmware.** A controller that refuses `conf list` is asked for `conf enumerate`; its settings, its
channels and all later texts and records are shown, in order, however the stream is cut into messages and
whatever other messages come in between.  At every moment tview has done the beginning of that. -/
theorem C105_old {e : Bs} {s : List Bs} {cs : List Spec.Channel} {is : List Spec.Item} (he : Refusal e)
    (hs : ∀ l ∈ s, Spec.Setting l) (hf : ∀ l ∈ s.head?, ¬ tx "schema " <+: l) (h : Conforming [] cs is) (ms : List Bs) :
    ((ms.filterMap accept).flatten <+: Spec.oldStream e s cs is →
      (messages dev begun ms).out <+: Spec.oldSeen e s cs is) ∧
    ((ms.filterMap accept).flatten = Spec.oldStream e s cs is →
      ∀ k, 2 * (Spec.oldStream e s cs is).length + 2 ≤ k →
        (messages dev begun (ms ++ List.replicate k emptyReply)).out = Spec.oldSeen e s cs is ∧
        (messages dev begun (ms ++ List.replicate k emptyReply)).buf = []) := by
  have hi := ideal_old he hs hf h
  simp only [pre, Prod.mk.injEq] at hi
  have h0 : Follows dev begun [] begun := by simp [Follows]
  have hst : ∀ (chunks : List Bs) (x : Bs), chunks.flatten ++ x = Spec.oldStream e s cs is → Steady dev begun chunks := by
    intro chunks x hx
    refine steady_of dev begun x chunks [] begun h0 ?_
    rw [List.nil_append, hx, hi.1]
    show Want.line ≠ Want.resync
    decide
  constructor
  · rintro ⟨x, hx⟩
    have hs := hst _ x hx
    have hf := follows_wakes dev begun _ [] begun h0 hs
    unfold Follows at hf
    rw [List.nil_append] at hf
    have ha := ideal_append dev x begun.at_ (begun.buf ++ (ms.filterMap accept).flatten)
    rw [List.append_assoc, hx] at ha
    simp only [pre, Prod.mk.injEq] at hf
    have ha := congrArg (fun t => t.2.2) ha
    simp only [pre] at ha
    rw [← hi.2.2, ha, ← List.append_assoc, hf.2.2, List.append_assoc]
    exact ⟨_, rfl⟩
  · intro hx k hk
    have he : accept emptyReply = some [] := by decide
    have hm : (ms ++ List.replicate k emptyReply).filterMap accept =
        ms.filterMap accept ++ List.replicate k [] := by
      rw [List.filterMap_append, List.filterMap_replicate_of_some he]
    have hs := hst (ms.filterMap accept ++ List.replicate k []) [] (by simp [hx])
    have hd := settled dev begun _ k hs (by rw [hx]; simp [begun]; omega)
    rw [hx] at hd
    rw [messages, hm]
    exact ⟨by rw [hd.2.2]; exact hi.2.2, by rw [hd.2.1]; exact hi.2.1⟩

/-- the hypotheses of `C105_old`. -/
example : Refusal (tx "ERR unknown subcommand") ∧ Spec.Setting (tx "servo.pid_dq.kp 0.005") ∧
    Spec.Setting (tx "schema x") ∧ ¬ tx "schema " <+: tx "servo.pid_dq.kp 0.005" := by
  refine ⟨⟨by decide +kernel, ⟨tx "ERR unknown subcomman", 100, by decide +kernel, by decide⟩, by decide +kernel⟩,
    ⟨⟨tx "servo.pid_dq.kp 0.00", 53, by decide +kernel, by decide⟩, by decide +kernel, by decide +kernel,
      by decide +kernel, by decide +kernel⟩,
    ⟨⟨tx "schema ", 120, by decide +kernel, by decide⟩, by decide +kernel, by decide +kernel,
      by decide +kernel, by decide +kernel⟩, by decide +kernel⟩

/-- **C105, the name of a record** is the word after `emit`, whatever follows it. -/
theorem C105_name {n t : Bs} (h : Spec.IsName n) (ht : ∀ c ∈ t, c ≤ 127) (k : List Bs) :
    dev.onLine (.run k) (tx "emit " ++ n ++ 32 :: t) = (.runBlock n k, []) := by
  have e : tx "emit " = [101, 109, 105, 116, 32] := by decide +kernel
  have h1 : isPrefix (tx "emit ") (tx "emit " ++ n ++ 32 :: t) = true := by
    rw [isPrefix_iff, List.append_assoc]
    exact List.prefix_append _ _
  have h2 : (tx "emit " ++ n ++ 32 :: t).any (127 < ·) = false := by
    rw [List.any_eq_false]
    intro c hc
    have : c ≤ 127 := by
      rcases List.mem_append.1 hc with hc | hc
      · rcases List.mem_append.1 hc with hc | hc
        · rw [e] at hc
          simp at hc
          omega
        · have := h.2 c hc
          omega
      · rcases List.mem_cons.1 hc with rfl | hc
        · omega
        · exact ht c hc
    simpa using this
  have h3 : second (tx "emit " ++ n ++ 32 :: t) = n := by
    rw [second, e]
    have : List.takeWhile (· ≠ 32) (n ++ 32 :: t) = n := by
      rw [List.takeWhile_append_of_pos]
      · simp
      · intro c hc
        have := h.2 c hc
        simp
        omega
    simpa using this
  show onLine (.run k) _ = _
  rw [onLine, h1]
  have : lineStep (.run k) (tx "emit " ++ n ++ 32 :: t) = (.runBlock n k, []) := by
    rw [lineStep, if_neg (by rw [h2]; simp), if_pos h1, h3]
  rw [this]
  rfl

example : Spec.IsName (tx "servo_stats") := by
  refine ⟨by decide +kernel, by decide +kernel⟩

/-- **C105 is violated: a controller that refuses `tel list`** is not shown any more: later texts are dropped. -/
theorem C105_ended_refuted :
    (messages dev begun [say (Spec.line (tx "OK")), say (Spec.line (tx "ERR unknown")), say (Spec.line (tx "hello")),
      emptyReply, emptyReply]).out =
      [.send (tx "conf list"), .text (tx "OK"), .send (tx "tel list"), .text (tx "ERR unknown")] := by
  decide +kernel

end Verif.Tool.Tview
