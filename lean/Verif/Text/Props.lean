import Verif.Text.Model

/-! C61 and C62: splitting and joining. -/

namespace Verif.Text

variable {α : Type} [DecidableEq α]

/-! ### Specification -/

/-- `Pieces D s ps`: cutting `s` at every element of `D` gives the pieces `ps`. -/
inductive Pieces (D : List α) : List α → List (List α) → Prop
  | last {t} : (∀ c ∈ t, c ∉ D) → Pieces D t [t]
  | cut {t d s ps} : (∀ c ∈ t, c ∉ D) → d ∈ D → Pieces D s ps → Pieces D (t ++ d :: s) (t :: ps)

/-- Dropping the final piece if it is empty. -/
def dropEmptyLast : List (List α) → List (List α)
  | [] => []
  | [t] => if t = [] then [] else [t]
  | t :: u :: ps => t :: dropEmptyLast (u :: ps)

/-! ### C61 -/

theorem findFirstOf_app {D t s : List α} (ht : ∀ c ∈ t, c ∉ D) (hs : ∀ d ∈ s.head?, d ∈ D) :
    findFirstOf (t ++ s) D = (t, s) := by
  unfold findFirstOf
  induction t with
  | nil =>
    cases s with
    | nil => rfl
    | cons d s =>
      have : d ∈ D := hs d (by simp)
      simp [this]
  | cons c cs ih =>
    have hc : c ∉ D := ht c (by simp)
    have := ih fun x hx => ht x (by simp [hx])
    simp only [Prod.mk.injEq] at this
    have hcc : (!D.contains c) = true := by simp [hc]
    simp only [List.cons_append, List.takeWhile_cons, List.dropWhile_cons, hcc, if_true, this.1, this.2]

theorem tokens_cut {D t : List α} {d : α} {s : List α} (ht : ∀ c ∈ t, c ∉ D) (hd : d ∈ D) :
    tokens D (t ++ d :: s) = t :: tokens D s := by
  have h := findFirstOf_app (s := d :: s) ht (by simpa using hd)
  rw [tokens.eq_def]
  split
  · rename_i heq; simp at heq
  · rename_i a b heq
    simp only [← heq]
    rw [h]

theorem tokens_last {D t : List α} (ht : ∀ c ∈ t, c ∉ D) (hne : t ≠ []) : tokens D t = [t] := by
  have h := findFirstOf_app (s := []) ht (by simp)
  rw [List.append_nil] at h
  rw [tokens.eq_def]
  split
  · rename_i heq; exact absurd rfl hne
  · rename_i a b
    rw [h]

theorem tokens_pieces {D s : List α} {ps : List (List α)} (h : Pieces D s ps) :
    tokens D s = dropEmptyLast ps := by
  induction h with
  | @last t ht =>
    unfold dropEmptyLast
    split
    · rename_i he; subst he; rw [tokens]
    · rename_i hne; exact tokens_last ht hne
  | @cut t d s ps ht hd hp ih =>
    rw [tokens_cut ht hd, ih]
    cases hp <;> rfl

theorem pieces_exist (D : List α) : ∀ s : List α, ∃ ps, Pieces D s ps := by
  intro s
  induction s with
  | nil => exact ⟨_, .last (t := []) (by simp)⟩
  | cons c s ih =>
    obtain ⟨ps, hp⟩ := ih
    by_cases hc : c ∈ D
    · exact ⟨_, Pieces.cut (t := []) (by simp) hc hp⟩
    · cases hp with
      | last ht =>
        exact ⟨_, Pieces.last (t := c :: s) (by
          intro x hx
          rcases List.mem_cons.mp hx with rfl | hx
          · exact hc
          · exact ht x hx)⟩
      | @cut t d s' ps' ht hd hp' =>
        refine ⟨_, Pieces.cut (t := c :: t) (by
          intro x hx
          rcases List.mem_cons.mp hx with rfl | hx
          · exact hc
          · exact ht x hx) hd hp'⟩

/-- The pieces are determined by the string. -/
theorem pieces_unique {D s : List α} {ps qs : List (List α)} (h : Pieces D s ps)
    (h' : Pieces D s qs) : ps = qs := by
  induction h generalizing qs with
  | @last t ht =>
    cases h' with
    | last => rfl
    | @cut t' d s' ps' ht' hd hp => exact absurd hd (ht d (by simp))
  | @cut t d s ps ht hd hp ih =>
    have e1 := findFirstOf_app (s := d :: s) ht (by simpa using hd)
    generalize hx : t ++ d :: s = x at h' e1
    cases h' with
    | last ht' => subst hx; exact absurd hd (ht' d (by simp))
    | @cut t' d' s' ps' ht' hd' hp' =>
      have e2 := findFirstOf_app (s := d' :: s') ht' (by simpa using hd')
      rw [e2] at e1
      simp only [Prod.mk.injEq, List.cons.injEq] at e1
      obtain ⟨rfl, rfl, rfl⟩ := e1
      rw [ih hp']

/-- C61: for every string there is exactly one way to cut it at the delimiters, and `split`
returns the pieces in order: the non-empty ones, or all of them except a final empty one. -/
theorem C61_split (s D : List α) :
    ∃ ps, Pieces D s ps ∧ (∀ qs, Pieces D s qs → qs = ps) ∧
      split s D true = ps.filter (fun t => !t.isEmpty) ∧ split s D false = dropEmptyLast ps := by
  obtain ⟨ps, hp⟩ := pieces_exist D s
  refine ⟨ps, hp, fun qs hq => pieces_unique hq hp, ?_, ?_⟩
  · unfold split
    rw [tokens_pieces hp]
    simp only [Bool.not_true, Bool.or_false]
    clear hp
    induction ps with
    | nil => rfl
    | cons t ps ih =>
      cases ps with
      | nil =>
        unfold dropEmptyLast
        split
        · rename_i he; subst he; rfl
        · rfl
      | cons u ps =>
        simp only [dropEmptyLast, List.filter_cons] at ih ⊢
        rw [ih]
  · unfold split
    rw [tokens_pieces hp]
    simp

example : Pieces [','] "a,,b".toList [['a'], [], ['b']] ∧ Pieces [','] "a,".toList [['a'], []] := by
  constructor
  · exact .cut (t := ['a']) (by decide) (by decide)
      (.cut (t := []) (by decide) (by decide) (.last (t := ['b']) (by decide)))
  · exact .cut (t := ['a']) (by decide) (by decide) (.last (t := []) (by decide))

/-- Putting delimiters back between pieces. -/
def weave : List (List α) → List α → List α
  | t :: ps, d :: ds => t ++ d :: weave ps ds
  | ps, [] => ps.flatten
  | [], _ :: _ => []

/-- C61: no token contains a delimiter, no token is empty when empty ones are skipped, and
the string is the tokens with delimiters between them (and after the last one if the string
ends in a delimiter). -/
theorem C61_tokens (s D : List α) :
    (∀ b, ∀ t ∈ split s D b, ∀ c ∈ t, c ∉ D) ∧ (∀ t ∈ split s D true, t ≠ []) ∧
    ∃ ds, (∀ d ∈ ds, d ∈ D) ∧ weave (split s D false) ds = s ∧
      (ds.length = (split s D false).length ∨ ds.length + 1 = (split s D false).length) := by
  obtain ⟨ps, hp, -, h1, h2⟩ := C61_split s D
  have hno : ∀ t ∈ ps, ∀ c ∈ t, c ∉ D := by
    clear h1 h2
    induction hp with
    | last ht => simpa using ht
    | cut ht hd _ ih =>
      intro t' ht'
      rcases List.mem_cons.mp ht' with rfl | h
      · exact ht
      · exact ih t' h
  refine ⟨?_, ?_, ?_⟩
  · intro b t ht
    have hm : t ∈ tokens D s := by
      unfold split at ht
      exact (List.mem_filter.mp ht).1
    have : t ∈ dropEmptyLast ps := by rw [← tokens_pieces hp]; exact hm
    have hsub : ∀ (qs : List (List α)) (t : List α), t ∈ dropEmptyLast qs → t ∈ qs := by
      intro qs
      induction qs with
      | nil => intro t h; simp [dropEmptyLast] at h
      | cons u us ih =>
        intro t h
        cases us with
        | nil =>
          unfold dropEmptyLast at h
          split at h
          · simp at h
          · exact h
        | cons w ws =>
          simp only [dropEmptyLast, List.mem_cons] at h ih ⊢
          rcases h with h | h
          · exact Or.inl h
          · exact Or.inr (ih t h)
    exact hno t (hsub ps t this)
  · intro t ht
    rw [h1] at ht
    have := (List.mem_filter.mp ht).2
    intro he; subst he; simp at this
  · rw [h2]
    clear h1 h2 hno
    induction hp with
    | @last t ht =>
      refine ⟨[], by simp, ?_, ?_⟩
      · unfold dropEmptyLast; split <;> simp_all [weave]
      · unfold dropEmptyLast; split <;> simp
    | @cut t d s ps ht hd hp ih =>
      obtain ⟨ds, hds, hw, hl⟩ := ih
      have hstep : dropEmptyLast (t :: ps) = t :: dropEmptyLast ps := by cases hp <;> rfl
      rw [hstep]
      refine ⟨d :: ds, ?_, by simp [weave, hw], by simpa using hl⟩
      intro x hx
      rcases List.mem_cons.mp hx with rfl | hx
      · exact hd
      · exact hds x hx

/-- C61, string literals: when both arguments are literals (and contain no NUL of their own)
the NULs act as a final delimiter, so that all pieces are returned, also a final empty one. -/
theorem C61_literals (nul : α) (s D : List α) (hs : nul ∉ s) :
    ∃ ps, Pieces D s ps ∧ splitLit nul s D true = ps.filter (fun t => !t.isEmpty) ∧
      splitLit nul s D false = ps := by
  obtain ⟨ps, hp⟩ := pieces_exist D s
  have hp' : Pieces (D ++ [nul]) (s ++ [nul]) (ps ++ [[]]) := by
    induction hp with
    | @last t ht =>
      refine .cut (t := t) ?_ (by simp) (.last (by simp))
      intro c hc hm
      rcases List.mem_append.mp hm with h | h
      · exact ht c hc h
      · simp only [List.mem_singleton] at h; subst h; exact hs hc
    | @cut t d s ps ht hd _ ih =>
      rw [List.append_assoc, List.cons_append]
      refine .cut (t := t) ?_ (by simp [hd]) (ih ?_)
      · intro c hc hm
        rcases List.mem_append.mp hm with h | h
        · exact ht c hc h
        · simp only [List.mem_singleton] at h; subst h; exact hs (by simp [hc])
      · intro h; exact hs (by simp [h])
  obtain ⟨qs, hq, hu, h1, h2⟩ := C61_split (s ++ [nul]) (D ++ [nul])
  have hqs := hu _ hp'
  subst hqs
  refine ⟨ps, hp, ?_, ?_⟩
  · unfold splitLit; rw [h1]; simp
  · unfold splitLit; rw [h2]
    clear hp hp' hu h1 h2 hq
    induction ps with
    | nil => simp [dropEmptyLast]
    | cons t ps ih =>
      cases ps with
      | nil => simp [dropEmptyLast]
      | cons u us => simp only [List.cons_append, dropEmptyLast] at ih ⊢; rw [ih]

/-- A literal string with delimiters given as a `std::string`: the NUL ends up in the last
token. -/
theorem C61_literal_string_violated :
    split ("a b".toList ++ [Char.ofNat 0]) [' '] ≠ split "a b".toList [' '] ∧
    split ("a b".toList ++ [Char.ofNat 0]) [' '] = [['a'], ['b', Char.ofNat 0]] := by
  decide +kernel

/-! ### C62 -/

/-- C62: the items printed are the elements with the delimiter between neighbours, or the
empty text. -/
theorem C62_join {β : Type} (delim empty : β) (xs : List β) :
    (xs = [] → streamJoin delim empty xs = [empty]) ∧
    (xs ≠ [] → streamJoin delim empty xs = xs.intersperse delim) ∧
    (xs ≠ [] → (streamJoin delim empty xs).length = 2 * xs.length - 1 ∧
      (∀ i, i < xs.length → (streamJoin delim empty xs)[2 * i]? = xs[i]?) ∧
      (∀ i, i + 1 < xs.length → (streamJoin delim empty xs)[2 * i + 1]? = some delim)) := by
  have hr : ∀ (x : β) (l : List β), x :: joinRest delim l = (x :: l).intersperse delim := by
    intro x l
    induction l generalizing x with
    | nil => rfl
    | cons y ys ih => simp only [joinRest]; rw [ih]; simp
  have hl : ∀ (l : List β), (joinRest delim l).length = 2 * l.length := by
    intro l
    induction l with
    | nil => rfl
    | cons y ys ih => simp [joinRest, ih]; omega
  have hget : ∀ (l : List β) (i : Nat), i < l.length →
      (joinRest delim l)[2 * i]? = some delim ∧ (joinRest delim l)[2 * i + 1]? = l[i]? := by
    intro l
    induction l with
    | nil => simp
    | cons y ys ih =>
      intro i hi
      cases i with
      | zero => simp [joinRest]
      | succ k =>
        have := ih k (by simpa using hi)
        rw [show 2 * (k + 1) = 2 * k + 2 by omega]
        simpa [joinRest] using this
  refine ⟨?_, ?_, ?_⟩
  · rintro rfl; rfl
  · intro h
    cases xs with
    | nil => exact absurd rfl h
    | cons x l => exact hr x l
  · intro h
    cases xs with
    | nil => exact absurd rfl h
    | cons x l =>
      refine ⟨?_, ?_, ?_⟩
      · simp [streamJoin, hl]; omega
      · intro i hi
        cases i with
        | zero => rfl
        | succ k =>
          have := (hget l k (by simpa using hi)).2
          rw [show 2 * (k + 1) = (2 * k + 1) + 1 by omega]
          simpa [streamJoin] using this
      · intro i hi
        have := (hget l i (by simpa using hi)).1
        simpa [streamJoin] using this

example : streamJoin ", " "." ["a", "b", "c"] = ["a", ", ", "b", ", ", "c"] := by decide

/-- C62: the settings take effect and do not disturb each other; the defaults are ", " and
"." (stream_join.hpp:48-49). -/
theorem C62_settings (xs : List String) (d e : String) :
    (((⟨xs, ", ", "."⟩ : Joiner String).setDelimiter d).setEmptyString e).print =
      (if xs = [] then [e] else xs.intersperse d) ∧
    (((⟨xs, ", ", "."⟩ : Joiner String).setEmptyString e).setDelimiter d).print =
      (if xs = [] then [e] else xs.intersperse d) ∧
    (⟨xs, ", ", "."⟩ : Joiner String).print = (if xs = [] then ["."] else xs.intersperse ", ") := by
  have h := fun a b => C62_join (β := String) a b xs
  refine ⟨?_, ?_, ?_⟩ <;> split <;> rename_i hx <;>
    simp only [Joiner.print, Joiner.setDelimiter, Joiner.setEmptyString]
  · exact (h d e).1 hx
  · exact (h d e).2.1 hx
  · exact (h d e).1 hx
  · exact (h d e).2.1 hx
  · exact (h _ _).1 hx
  · exact (h _ _).2.1 hx

/-- C62: the output iterator writes the same: nothing for no values, otherwise the values
with the delimiter between them, after what the stream already held. -/
theorem C62_out_joiner {β : Type} (out : List β) (d : β) (xs : List β) :
    (xs.foldl OutJoiner.assign (OutJoiner.mk' out d)).out = out ++ xs.intersperse d := by
  have hrun : ∀ (l : List β) (j : OutJoiner β), j.first = false →
      (l.foldl OutJoiner.assign j).out = j.out ++ (l.flatMap fun x => [j.delimiter, x]) := by
    intro l
    induction l with
    | nil => simp
    | cons y ys ih =>
      intro j hj
      rw [List.foldl_cons, ih _ rfl]
      simp [OutJoiner.assign, hj]
  have hint : ∀ (x : β) (l : List β), (x :: l).intersperse d = x :: l.flatMap fun y => [d, y] := by
    intro x l
    induction l generalizing x with
    | nil => rfl
    | cons y ys ih =>
      have := ih y
      simp [this]
  cases xs with
  | nil => simp [OutJoiner.mk']
  | cons x l =>
    rw [List.foldl_cons, hrun _ _ rfl, hint]
    simp [OutJoiner.assign, OutJoiner.mk']

example : ([1, 2, 3].foldl OutJoiner.assign (OutJoiner.mk' [9] 0)).out = [9, 1, 0, 2, 0, 3] := by
  decide

end Verif.Text
