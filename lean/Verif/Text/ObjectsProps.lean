import Verif.Text.ObjectsLemmas
/-
C142 Joiners are views: what they print is what is there when they print it, and each copy counts for itself.
-/
namespace Verif.Text
open Spec

/-! ### When it is defined -/

/-- C142: a program that uses joiners is defined exactly if nothing is used that does not exist at that moment. The container must exist
when it is printed; the delimiter only if there are two elements; the text for an empty range only for one. -/
theorem C142_defined (as : List Act) : World.init.run as ≠ none ↔ AllSafe [] as := by
  obtain ⟨h1, h2⟩ := run_agrees agrees_init as
  constructor
  · intro h
    exact Classical.byContradiction fun hn => h (h2 hn)
  · intro h
    obtain ⟨w, hw, _⟩ := h1 h
    simp [hw]

example : World.init.run [.stream 0 true, .cont 0 (some ["a", "b"]), .join 0 0, .buf 3 (some "; "), .delim 0 (.buf 3), .print 0 0] ≠ none := by
  decide

theorem run_some {as : List Act} {w : World} (h : World.init.run as = some w) : AllSafe [] as ∧ Agrees as.reverse w := by
  have hs := (C142_defined as).1 (by simp [h])
  obtain ⟨w', hw, ha⟩ := (run_agrees agrees_init as).1 hs
  rw [h] at hw
  obtain rfl := Option.some.inj hw
  exact ⟨hs, by simpa using ha⟩

/-! ### What is written -/

/-- C142: after any program each stream contains exactly what its past says, and exists if it says so. -/
theorem C142_text (as : List Act) (w : World) (h : World.init.run as = some w) (s : Nat) :
    w.streams s = if open' s as.reverse then some (text s as.reverse) else none :=
  (run_some h).2.streams s

example : ((World.init.run [.stream 0 true, .iter 0 0 (.text "-"), .write 0 "a", .copyIter 1 0, .write 1 "b", .write 0 "c", .iter 2 0 (.text "+"),
    .write 2 "d"]).bind fun w => w.streams 0) = some ["a", "-", "b", "-", "c", "d"] := by decide

/-- C142: a `stream_joiner` prints what the container holds now, with the delimiter as it is now: not when the joiner was made. Nothing else
changes. -/
theorem C142_now (as : List Act) (s j : Nat) (w' : World) (h : World.init.run (as ++ [.print s j]) = some w') :
    ∃ w c xs t d e, World.init.run as = some w ∧ about j as.reverse = some c ∧ w.conts c = some xs ∧ w.streams s = some t ∧
      (2 ≤ xs.length → shows (between j as.reverse) as.reverse = some d) ∧ (xs = [] → shows (instead j as.reverse) as.reverse = some e) ∧
      w'.streams s = some (t ++ if xs = [] then [e] else xs.intersperse d) ∧
      (∀ k, k ≠ s → w'.streams k = w.streams k) ∧ w'.conts = w.conts ∧ w'.bufs = w.bufs ∧ w'.views = w.views ∧ w'.iters = w.iters := by
  rw [run_append] at h
  cases hw : World.init.run as with
  | none => simp [hw] at h
  | some w =>
    simp only [hw, Option.bind_some, World.run] at h
    have ha := (run_some hw).2
    cases hp : w.act (.print s j) with
    | none => simp [hp] at h
    | some w2 =>
      simp only [hp, Option.some.injEq] at h
      subst h
      have hsafe : Safe as.reverse (.print s j) := by
        refine Classical.byContradiction fun hn => ?_
        rw [act_unsafe ha _ hn] at hp
        cases hp
      obtain ⟨ho, c, xs, hc, hx, h1, h2⟩ := hsafe
      have hst : w.streams s = some (text s as.reverse) := by rw [ha.streams, if_pos ho]
      simp only [World.act, hst, ha.views, hc, Option.map_some, items_some ha c _ _ xs hx h1 h2, Option.some.injEq] at hp
      subst hp
      refine ⟨w, c, xs, text s as.reverse, (shows (between j as.reverse) as.reverse).getD "", (shows (instead j as.reverse) as.reverse).getD "",
        rfl, hc, by rw [ha.conts, hx], hst, ?_, ?_, by simp [upd_eq], ?_, rfl, rfl, rfl, rfl⟩
      · intro hl
        cases hs : shows (between j as.reverse) as.reverse with
        | none => exact absurd hs (h2 hl)
        | some d => rfl
      · intro hl
        cases hs : shows (instead j as.reverse) as.reverse with
        | none => exact absurd hs (h1 hl)
        | some d => rfl
      · intro k hk
        simp [upd_eq, hk]

example : ((World.init.run ([.stream 0 true, .cont 0 (some ["a"]), .join 0 0, .buf 3 (some "; "), .delim 0 (.buf 3), .cont 0 (some ["x", "y"]),
    .buf 3 (some "-")] ++ [.print 0 0])).bind fun w => w.streams 0) = some ["x", "-", "y"] := by decide

/-! ### Passing a joiner on -/

theorem separates_steady {h : Held} {d : String} {past as : List Act} (hs : Steady h d past as) : separates h past = some d := by
  rcases hs with rfl | rfl | ⟨k, rfl, hc, _⟩
  · rfl
  · rfl
  · exact hc

theorem characters_other {k : Nat} {a : Act} {past : List Act} (h : ∀ o, a ≠ .buf k o) : characters k (a :: past) = characters k past := by
  cases a with
  | buf b o =>
    have : b ≠ k := fun e => h o (by rw [e])
    simp [characters, this]
  | _ => rfl

theorem steady_next {h : Held} {d : String} {past as : List Act} {a : Act} (hs : Steady h d past (a :: as)) : Steady h d (a :: past) as := by
  rcases hs with rfl | rfl | ⟨k, rfl, hc, hn⟩
  · exact .inl rfl
  · exact .inr (.inl rfl)
  · refine .inr (.inr ⟨k, rfl, ?_, fun o ho => hn o (by simp [ho])⟩)
    rw [characters_other (fun o e => hn o (by simp [e]))]
    exact hc

/-- What a relay writes: the first delimiter only if something was written before. -/
def after (d : String) (n : Nat) (vs : List String) : List String :=
  (if 0 < n ∧ vs ≠ [] then [d] else []) ++ vs.intersperse d

theorem after_cons (d v : String) (n : Nat) (vs : List String) :
    after d n (v :: vs) = (if 0 < n then [d, v] else [v]) ++ after d (n + 1) vs := by
  cases vs with
  | nil => by_cases h : 0 < n <;> simp [after, h]
  | cons x xs => by_cases h : 0 < n <;> simp [after, h]

theorem elsewhere_frame {s b : Nat} {past : List Act} {a : Act} (h : Elsewhere s past b a) (ht : target b past = some s) :
    text s (a :: past) = text s past ∧ target b (a :: past) = some s ∧ separator b (a :: past) = separator b past ∧
      lineage b (a :: past) = lineage b past := by
  cases a with
  | stream s' on => simp only [Elsewhere] at h; simp [text, target, separator, lineage, h, ht]
  | print s' j => simp only [Elsewhere] at h; simp [text, target, separator, lineage, h, ht]
  | iter i s' hh => simp only [Elsewhere] at h; simp [text, target, separator, lineage, h, ht]
  | copyIter d i => simp only [Elsewhere] at h; simp [text, target, separator, lineage, h, ht]
  | moveIter d i => simp only [Elsewhere] at h; simp [text, target, separator, lineage, h.1, h.2, ht]
  | endIter i => simp only [Elsewhere] at h; simp [text, target, separator, lineage, h, ht]
  | write i v =>
    simp only [Elsewhere] at h
    have : i ≠ b := fun e => h (by rw [e]; exact ht)
    simp [text, target, separator, lineage, h, ht, this]
  | _ => simp [text, target, separator, lineage, ht]

theorem relay_text {s b : Nat} {past as : List Act} {vs : List String} (hr : Relay s past b as vs) (d : String)
    (ht : target b past = some s) (hd : Steady (separator b past) d past as) :
    text s (as.reverse ++ past) = text s past ++ after d (lineage b past) vs := by
  induction hr with
  | nil => simp [after]
  | @write past b v as vs _ ih =>
    have hsep := separates_steady hd
    have := ih (by simpa [target] using ht) (by simpa [separator] using steady_next hd)
    simp only [List.reverse_cons, List.append_assoc, List.singleton_append]
    rw [this, after_cons]
    simp only [text, ht, if_true, lineage, hsep, Option.getD_some]
    simp
  | @copy past b x as vs _ ih =>
    have := ih (by simpa [target] using ht) (by simpa [separator] using steady_next hd)
    simp only [List.reverse_cons, List.append_assoc, List.singleton_append]
    rw [this]
    simp [text, lineage]
  | @move past b x as vs _ ih =>
    have := ih (by simpa [target] using ht) (by simpa [separator] using steady_next hd)
    simp only [List.reverse_cons, List.append_assoc, List.singleton_append]
    rw [this]
    simp [text, lineage]
  | @other past b a as vs he _ ih =>
    obtain ⟨e1, e2, e3, e4⟩ := elsewhere_frame he ht
    have := ih e2 (by rw [e3]; exact steady_next hd)
    simp only [List.reverse_cons, List.append_assoc, List.singleton_append]
    rw [this, e1, e4]

theorem relay_open {s b : Nat} {past as : List Act} {vs : List String} (hr : Relay s past b as vs) : ∀ on, Act.stream s on ∉ as := by
  induction hr with
  | nil => intro on h; simp at h
  | write _ ih => intro on h; simp at h; exact ih on h
  | copy _ ih => intro on h; simp at h; exact ih on h
  | move _ ih => intro on h; simp at h; exact ih on h
  | other he _ ih =>
    intro on h
    rcases List.mem_cons.1 h with e | h
    · subst e; exact he rfl
    · exact ih on h

/-- C142: if an `outstream_joiner` is passed on (copied or moved, and then only the new one is used), all values together are written with
the delimiter between neighbours and nowhere else, whatever happens elsewhere. -/
theorem C142_relay (pre as : List Act) (s b : Nat) (h : Held) (d : String) (vs : List String) (w : World)
    (hrun : World.init.run (pre ++ .iter b s h :: as) = some w) (hd : Steady h d pre.reverse as)
    (hr : Relay s (.iter b s h :: pre.reverse) b as vs) :
    ∃ w0 t, World.init.run pre = some w0 ∧ w0.streams s = some t ∧ w.streams s = some (t ++ vs.intersperse d) := by
  have hopen := relay_open hr
  obtain ⟨hs, ha⟩ := run_some hrun
  rw [run_append] at hrun
  cases h0 : World.init.run pre with
  | none => simp [h0] at hrun
  | some w0 =>
    have ha0 := (run_some h0).2
    simp only [h0, Option.bind_some, World.run] at hrun
    have ho : open' s pre.reverse = true := by
      cases hst : w0.streams s with
      | none => simp [World.act, hst] at hrun
      | some t =>
        have := ha0.streams s
        rw [hst] at this
        cases hx : open' s pre.reverse with
        | true => rfl
        | false => simp [hx] at this
    have hkeep : ∀ (l past : List Act), (∀ on, Act.stream s on ∉ l) → open' s past = true → open' s (l.reverse ++ past) = true := by
      intro l
      induction l with
      | nil => intro past _ h; simpa using h
      | cons a l ih =>
        intro past hn hp
        simp only [List.reverse_cons, List.append_assoc, List.singleton_append]
        refine ih (a :: past) (fun on ho => hn on (by simp [ho])) ?_
        cases a with
        | stream s' on =>
          have : s' ≠ s := fun e => hn on (by simp [e])
          simpa [open', this] using hp
        | _ => simpa [open'] using hp
    have htext := relay_text hr d (by simp [target]) (by
      simp only [separator, if_true]
      refine (?_ : Steady h d (.iter b s h :: pre.reverse) as)
      rcases hd with e | e | ⟨k, e, hc, hn⟩
      · exact .inl e
      · exact .inr (.inl e)
      · exact .inr (.inr ⟨k, e, by simpa [characters] using hc, hn⟩))
    have hfin := ha.streams s
    have hrev : (pre ++ .iter b s h :: as).reverse = as.reverse ++ (.iter b s h :: pre.reverse) := by simp
    rw [hrev, if_pos (hkeep as _ hopen (by simpa [open'] using ho)), htext] at hfin
    refine ⟨w0, text s pre.reverse, rfl, by rw [ha0.streams, if_pos ho], ?_⟩
    rw [hfin]
    simp [after, lineage, text]

example : Relay 0 [] 0 [.write 0 "a", .copyIter 1 0, .buf 2 none, .write 1 "b", .moveIter 0 1, .write 0 "c"] ["a", "b", "c"] :=
  .write (.copy (.other trivial (.write (.move (.write .nil)))))
example : ((World.init.run ([.stream 0 true] ++ .iter 0 0 (.text "-") :: [.write 0 "a", .copyIter 1 0, .buf 2 none, .write 1 "b", .moveIter 0 1,
    .write 0 "c"])).bind fun w => w.streams 0) = some ["a", "-", "b", "-", "c"] := by decide

/-! ### With the algorithms of the standard library -/

theorem relay_writes (s b : Nat) (xs : List String) : ∀ (past rest : List Act) (vs : List String),
    Relay s ((xs.map fun x => Act.write b x).reverse ++ past) b rest vs →
      Relay s past b ((xs.map fun x => Act.write b x) ++ rest) (xs ++ vs) := by
  induction xs with
  | nil => intro past rest vs h; simpa using h
  | cons x xs ih =>
    intro past rest vs h
    refine .write (ih _ _ _ ?_)
    simpa using h

theorem relay_kept (s i tmp : Nat) (hne : tmp ≠ i) (xss : List (List String)) : ∀ (past : List Act),
    Relay s past i (xss.flatMap fun xs => copyAlgorithm true xs i tmp) xss.flatten := by
  induction xss with
  | nil => intro past; exact .nil
  | cons xs xss ih =>
    intro past
    have he : copyAlgorithm true xs i tmp = .copyIter tmp i :: ((xs.map fun x => Act.write tmp x) ++ [.moveIter i tmp, .endIter tmp]) := by
      simp [copyAlgorithm]
    rw [List.flatMap_cons, List.flatten_cons, he, List.cons_append, List.append_assoc]
    refine .copy (relay_writes s tmp xs _ _ _ (.move (.other (a := .endIter tmp) hne ?_)))
    exact ih _

/-- Writing does not change where to, or what with. -/
theorem writes_frame (s k d : Nat) (xs : List String) (past : List Act) :
    target k ((xs.map fun x => Act.write d x).reverse ++ past) = target k past ∧
    separator k ((xs.map fun x => Act.write d x).reverse ++ past) = separator k past ∧
    open' s ((xs.map fun x => Act.write d x).reverse ++ past) = open' s past := by
  induction xs generalizing past with
  | nil => simp
  | cons x xs ih =>
    have := ih (.write d x :: past)
    simp only [List.map_cons, List.reverse_cons, List.append_assoc, List.singleton_append]
    rw [this.1, this.2.1, this.2.2]
    simp [target, separator, open']

theorem writes_lineage (k d : Nat) (hne : d ≠ k) (xs : List String) (past : List Act) :
    lineage k ((xs.map fun x => Act.write d x).reverse ++ past) = lineage k past := by
  induction xs generalizing past with
  | nil => simp
  | cons x xs ih =>
    have := ih (.write d x :: past)
    simp only [List.map_cons, List.reverse_cons, List.append_assoc, List.singleton_append]
    rw [this]
    simp [lineage, hne]

theorem writes_safe (s d : Nat) (t : String) (h : Held) (hh : h = .text t ∨ h = .ptr (.lit t)) (xs rest : List Act) (vs : List String)
    (hxs : xs = vs.map fun x => Act.write d x) :
    ∀ past, target d past = some s → separator d past = h → open' s past = true → AllSafe (xs.reverse ++ past) rest → AllSafe past (xs ++ rest) := by
  subst hxs
  induction vs with
  | nil => intro past _ _ _ hr; simpa using hr
  | cons v vs ih =>
    intro past h1 h2 h3 hr
    refine ⟨⟨s, h1, h3, fun _ => ?_⟩, ih _ (by simpa [target] using h1) (by simpa [separator] using h2) (by simpa [open'] using h3) (by simpa using hr)⟩
    rw [h2]
    rcases hh with rfl | rfl <;> simp [separates, shows]

theorem allSafe_append (as bs past : List Act) : AllSafe past (as ++ bs) ↔ AllSafe past as ∧ AllSafe (as.reverse ++ past) bs := by
  induction as generalizing past with
  | nil => simp [AllSafe]
  | cons a as ih => simp [AllSafe, ih, and_assoc]

/-- One call of the algorithm: safe, and what the joiner is afterwards. -/
theorem algorithm_step (kept : Bool) (s i tmp : Nat) (hne : tmp ≠ i) (t : String) (h : Held) (hh : h = .text t ∨ h = .ptr (.lit t))
    (xs : List String) (past : List Act) (h1 : target i past = some s) (h2 : separator i past = h) (h3 : open' s past = true) :
    AllSafe past (copyAlgorithm kept xs i tmp) ∧ target i ((copyAlgorithm kept xs i tmp).reverse ++ past) = some s ∧
      separator i ((copyAlgorithm kept xs i tmp).reverse ++ past) = h ∧ open' s ((copyAlgorithm kept xs i tmp).reverse ++ past) = true ∧
      (kept = false → lineage i ((copyAlgorithm kept xs i tmp).reverse ++ past) = lineage i past) := by
  have hne' : i ≠ tmp := fun e => hne e.symm
  have hw := fun k => writes_frame s k tmp xs (.copyIter tmp i :: past)
  have hwl := writes_lineage i tmp hne xs (.copyIter tmp i :: past)
  have f1 := (hw tmp).1
  have f2 := (hw tmp).2.1
  have f3 := (hw i).1
  have f4 := (hw i).2.1
  have f5 := (hw i).2.2
  simp only [target, separator, open', lineage, if_true, hne, if_false, h1, h2, h3] at f1 f2 f3 f4 f5 hwl
  cases kept with
  | true =>
    refine ⟨?_, ?_, ?_, ?_, by simp⟩
    · simp only [copyAlgorithm, if_true, List.cons_append, List.append_assoc, List.nil_append]
      refine ⟨⟨s, h1⟩, ?_⟩
      refine writes_safe s tmp t h hh _ _ xs rfl _ (by simpa [target] using h1) (by simpa [separator] using h2) (by simpa [open'] using h3) ?_
      refine ⟨⟨hne', s, f1⟩, ⟨s, ?_⟩, trivial⟩
      simp only [target, hne', if_false]
      exact f1
    · simp only [copyAlgorithm, if_true, List.cons_append, List.append_assoc, List.nil_append, List.reverse_cons, List.reverse_append,
        List.reverse_nil, List.singleton_append, target, hne, if_false]
      exact f1
    · simp only [copyAlgorithm, if_true, List.cons_append, List.append_assoc, List.nil_append, List.reverse_cons, List.reverse_append,
        List.reverse_nil, List.singleton_append, separator]
      exact f2
    · simp only [copyAlgorithm, if_true, List.cons_append, List.append_assoc, List.nil_append, List.reverse_cons, List.reverse_append,
        List.reverse_nil, List.singleton_append, open']
      exact f5
  | false =>
    refine ⟨?_, ?_, ?_, ?_, fun _ => ?_⟩
    · simp only [copyAlgorithm, Bool.false_eq_true, if_false, List.cons_append, List.append_assoc, List.nil_append]
      refine ⟨⟨s, h1⟩, ?_⟩
      refine writes_safe s tmp t h hh _ _ xs rfl _ (by simpa [target] using h1) (by simpa [separator] using h2) (by simpa [open'] using h3) ?_
      exact ⟨⟨s, f1⟩, trivial⟩
    · simp only [copyAlgorithm, Bool.false_eq_true, if_false, List.cons_append, List.append_assoc, List.nil_append, List.reverse_cons,
        List.reverse_append, List.reverse_nil, List.singleton_append, target, hne]
      exact f3
    · simp only [copyAlgorithm, Bool.false_eq_true, if_false, List.cons_append, List.append_assoc, List.nil_append, List.reverse_cons,
        List.reverse_append, List.reverse_nil, List.singleton_append, separator]
      exact f4
    · simp only [copyAlgorithm, Bool.false_eq_true, if_false, List.cons_append, List.append_assoc, List.nil_append, List.reverse_cons,
        List.reverse_append, List.reverse_nil, List.singleton_append, open']
      exact f5
    · simp only [copyAlgorithm, Bool.false_eq_true, if_false, List.cons_append, List.append_assoc, List.nil_append, List.reverse_cons,
        List.reverse_append, List.reverse_nil, List.singleton_append, lineage]
      exact hwl

theorem algorithms_safe (kept : Bool) (s i tmp : Nat) (hne : tmp ≠ i) (t : String) (h : Held) (hh : h = .text t ∨ h = .ptr (.lit t))
    (xss : List (List String)) : ∀ (past : List Act), target i past = some s → separator i past = h → open' s past = true →
      AllSafe past (xss.flatMap fun xs => copyAlgorithm kept xs i tmp) := by
  induction xss with
  | nil => intro past _ _ _; trivial
  | cons xs xss ih =>
    intro past h1 h2 h3
    obtain ⟨a, b, c, d, _⟩ := algorithm_step kept s i tmp hne t h hh xs past h1 h2 h3
    rw [List.flatMap_cons, allSafe_append]
    exact ⟨a, ih _ b c d⟩

theorem writes_text (s b : Nat) (t : String) (h : Held) (hh : h = .text t ∨ h = .ptr (.lit t)) (xs : List String) (past : List Act)
    (h1 : target b past = some s) (h2 : separator b past = h) :
    text s ((xs.map fun x => Act.write b x).reverse ++ past) = text s past ++ after t (lineage b past) xs := by
  have hr : Relay s past b ((xs.map fun x => Act.write b x) ++ []) (xs ++ []) := relay_writes s b xs past [] [] .nil
  simp only [List.append_nil] at hr
  refine relay_text hr t h1 ?_
  rw [h2]
  rcases hh with rfl | rfl
  · exact .inl rfl
  · exact .inr (.inl rfl)

theorem unkept_text (s i tmp : Nat) (hne : tmp ≠ i) (t : String) (h : Held) (hh : h = .text t ∨ h = .ptr (.lit t))
    (xss : List (List String)) : ∀ (past : List Act), target i past = some s → separator i past = h → open' s past = true →
      lineage i past = 0 →
      text s ((xss.flatMap fun xs => copyAlgorithm false xs i tmp).reverse ++ past) = text s past ++ xss.flatMap fun xs => xs.intersperse t := by
  induction xss with
  | nil => intro past _ _ _ _; simp
  | cons xs xss ih =>
    intro past h1 h2 h3 h4
    obtain ⟨_, b, c, d, e⟩ := algorithm_step false s i tmp hne t h hh xs past h1 h2 h3
    rw [List.flatMap_cons, List.reverse_append, List.append_assoc, ih _ b c d (by rw [e rfl, h4]), List.flatMap_cons, ← List.append_assoc]
    congr 1
    have hw := writes_text s tmp t h hh xs (.copyIter tmp i :: past) (by simpa [target] using h1) (by simpa [separator] using h2)
    simp only [copyAlgorithm, Bool.false_eq_true, if_false, List.cons_append, List.append_assoc, List.nil_append, List.reverse_cons,
      List.reverse_append, List.reverse_nil, List.singleton_append, text]
    rw [hw]
    simp [text, after, lineage, h4]

/-- C142: several calls of `std::copy` with one joiner, whose delimiter is a literal or a string. If what each call returns is assigned to
the joiner, the values of all of them are joined. If not, each call starts afresh: there is no delimiter between the last value of one call
and the first of the next. Both are defined. -/
theorem C142_algorithm (kept : Bool) (pre : List Act) (w0 : World) (s i tmp : Nat) (hne : tmp ≠ i) (d : String) (h : Held)
    (hh : h = .text d ∨ h = .ptr (.lit d)) (out : List String) (h0 : World.init.run pre = some w0) (hs : w0.streams s = some out)
    (xss : List (List String)) :
    ∃ w, World.init.run (pre ++ .iter i s h :: xss.flatMap fun xs => copyAlgorithm kept xs i tmp) = some w ∧
      w.streams s = some (out ++ if kept then xss.flatten.intersperse d else xss.flatMap fun xs => xs.intersperse d) := by
  obtain ⟨hsafe, ha0⟩ := run_some h0
  have ho : open' s pre.reverse = true := by
    have := ha0.streams s
    rw [hs] at this
    cases hx : open' s pre.reverse with
    | true => rfl
    | false => simp [hx] at this
  have hout : text s pre.reverse = out := by
    have := ha0.streams s
    rw [hs, if_pos ho] at this
    exact (Option.some.inj this).symm
  have hall : AllSafe [] (pre ++ .iter i s h :: xss.flatMap fun xs => copyAlgorithm kept xs i tmp) := by
    rw [allSafe_append]
    refine ⟨hsafe, ?_⟩
    rw [List.append_nil]
    refine ⟨ho, ?_⟩
    exact algorithms_safe kept s i tmp hne d h hh xss _ (by simp [target]) (by simp [separator]) (by simpa [open'] using ho)
  obtain ⟨w, hw, ha⟩ := (run_agrees agrees_init _).1 hall
  refine ⟨w, hw, ?_⟩
  have hfin := ha.streams s
  have hrev : (pre ++ .iter i s h :: xss.flatMap fun xs => copyAlgorithm kept xs i tmp).reverse ++ [] =
      (xss.flatMap fun xs => copyAlgorithm kept xs i tmp).reverse ++ (.iter i s h :: pre.reverse) := by simp
  rw [hrev] at hfin
  have hopen : open' s ((xss.flatMap fun xs => copyAlgorithm kept xs i tmp).reverse ++ (.iter i s h :: pre.reverse)) = true := by
    have key : ∀ (xss : List (List String)) (past : List Act), target i past = some s → separator i past = h → open' s past = true →
        open' s ((xss.flatMap fun xs => copyAlgorithm kept xs i tmp).reverse ++ past) = true := by
      intro xss
      induction xss with
      | nil => intro past _ _ h3; simpa using h3
      | cons xs xss ih =>
        intro past h1 h2 h3
        obtain ⟨_, b, c, e, _⟩ := algorithm_step kept s i tmp hne d h hh xs past h1 h2 h3
        rw [List.flatMap_cons, List.reverse_append, List.append_assoc]
        exact ih _ b c e
    exact key xss _ (by simp [target]) (by simp [separator]) (by simpa [open'] using ho)
  rw [if_pos hopen] at hfin
  rw [hfin]
  cases kept with
  | true =>
    have := relay_text (relay_kept s i tmp hne xss (.iter i s h :: pre.reverse)) d (by simp [target]) (by
      simp only [separator, if_true]
      rcases hh with e | e
      · exact .inl e
      · exact .inr (.inl e))
    rw [this]
    simp [text, after, lineage, hout]
  | false =>
    rw [unkept_text s i tmp hne d h hh xss _ (by simp [target]) (by simp [separator]) (by simpa [open'] using ho) (by simp [lineage])]
    simp [text, hout]

example : ((World.init.run ([.stream 0 true] ++ .iter 0 0 (.ptr (.lit ", ")) :: [["1", "2"], [], ["3"]].flatMap fun xs => copyAlgorithm true xs 0 1)).bind
    fun w => w.streams 0) = some ["1", ", ", "2", ", ", "3"] := by decide

/-! ### What goes wrong -/

/-- C142 fails for a joiner that is used with `std::copy` twice: `1, 23` instead of `1, 2, 3`. -/
theorem C142_by_value_violated :
    ∃ w, World.init.run ([.stream 0 true, .iter 0 0 (.ptr (.lit ", "))] ++ copyAlgorithm false ["1", "2"] 0 1 ++ copyAlgorithm false ["3"] 0 1) = some w ∧
      w.streams 0 = some ["1", ", ", "2", "3"] ∧ w.streams 0 ≠ some (["1", "2", "3"].intersperse ", ") :=
  ⟨_, rfl, by decide, by decide⟩

/-- C142 fails for `auto j = stream_join(f()); os << j;`: whatever the container was, and whatever happened before, it is gone. -/
theorem C142_temporary_violated (pre : List Act) (c j s : Nat) (xs : List String) :
    World.init.run (pre ++ [.cont c (some xs), .join j c, .cont c none, .print s j]) = none := by
  refine Classical.byContradiction fun hn => ?_
  have := (C142_defined _).1 hn
  rw [allSafe_append] at this
  obtain ⟨_, _, _, _, hp, _⟩ := this
  obtain ⟨_, c', xs', h1, h2, _⟩ := hp
  simp only [about, if_true, Option.some.injEq] at h1
  subst h1
  simp [contents] at h2

/-- C142 fails for `j.set_delimiter(std::string{...}.c_str())`: undefined, but only from two elements on. -/
theorem C142_delimiter_violated :
    World.init.run [.stream 0 true, .cont 0 (some ["a", "b"]), .join 0 0, .buf 0 (some "; "), .delim 0 (.buf 0), .buf 0 none, .print 0 0] = none ∧
    World.init.run [.stream 0 true, .cont 0 (some ["a"]), .join 0 0, .buf 0 (some "; "), .delim 0 (.buf 0), .buf 0 none, .print 0 0] ≠ none := by
  decide

/-- C142 fails for a joiner that was moved from: it goes on writing, but with an empty delimiter. -/
theorem C142_moved_violated :
    ∃ w, World.init.run [.stream 0 true, .iter 0 0 (.text ", "), .write 0 "1", .moveIter 1 0, .write 0 "2"] = some w ∧
      w.streams 0 = some ["1", "", "2"] :=
  ⟨_, rfl, by decide⟩

end Verif.Text
