import Verif.YamlNode.Frame
/-
Reading a document gives the object its tree stands for.
-/
namespace Verif.YamlNode

/-! ### Documents without redirected nodes -/

/-- The document at `n` contains no node of `S`. -/
def Safe (S : List Nat) (H : Heap) (n : Nat) : Prop := n < H.nodes ∧ ∀ b ∈ S, ¬ Within H n b

def SafeH (S : List Nat) (H : Heap) (h : Handle) : Prop := ∀ n, h = some n → Safe S H n

theorem sub_right {a R : List Nat} : ∀ n ∈ R, n ∈ a ++ R := fun _ hn => List.mem_append.mpr (.inr hn)

theorem sub_left {a R : List Nat} : ∀ n ∈ a, n ∈ a ++ R := fun _ hn => List.mem_append.mpr (.inl hn)

theorem Safe.mono {S S' : List Nat} (hs : ∀ n ∈ S', n ∈ S) {H : Heap} {n : Nat} (h : Safe S H n) : Safe S' H n :=
  ⟨h.1, fun b hb => h.2 b (hs b hb)⟩

theorem SafeH.mono {S S' : List Nat} (hs : ∀ n ∈ S', n ∈ S) {H : Heap} {h : Handle} (hh : SafeH S H h) :
    SafeH S' H h := fun n hn => (hh n hn).mono hs

theorem Safe.kid {S : List Nat} {H : Heap} (ho : Ok H) {n m : Nat} (h : Safe S H n) (hm : m ∈ (H.content n).kids) :
    Safe S H m :=
  ⟨ho.content h.1 m hm, fun b hb hw => h.2 b hb (.kid hm hw)⟩

theorem Safe.content {B S : List Nat} (hs : ∀ n ∈ B, n ∈ S) {H H' : Heap} (ho : Ok H) (hr : Redirects B H H') {n : Nat}
    (h : Safe S H n) : H'.content n = H.content n := by
  have hn : n ∉ B := fun hc => h.2 n (hs n hc) (.self n)
  unfold Heap.content
  rw [hr.ref n h.1 hn, hr.data _ (ho.ref n h.1)]

theorem Safe.within {B S : List Nat} (hs : ∀ n ∈ B, n ∈ S) {H H' : Heap} (ho : Ok H) (hr : Redirects B H H') {n m : Nat}
    (hw : Within H' n m) (h : Safe S H n) : Within H n m := by
  induction hw with
  | self => exact .self _
  | kid hk _ ih =>
    rw [h.content hs ho hr] at hk
    exact .kid hk (ih (h.kid ho hk))

theorem Safe.keep {B S : List Nat} (hs : ∀ n ∈ B, n ∈ S) {H H' : Heap} (ho : Ok H) (hr : Redirects B H H') {n : Nat}
    (h : Safe S H n) : Safe S H' n :=
  ⟨Nat.lt_of_lt_of_le h.1 hr.nodes, fun b hb hw => h.2 b hb (h.within hs ho hr hw)⟩

theorem SafeH.keep {B S : List Nat} (hs : ∀ n ∈ B, n ∈ S) {H H' : Heap} (ho : Ok H) (hr : Redirects B H H') {h : Handle}
    (hh : SafeH S H h) : SafeH S H' h := fun n hn => (hh n hn).keep hs ho hr

theorem Safe.reads {B S : List Nat} (hs : ∀ n ∈ B, n ∈ S) {H H' : Heap} (ho : Ok H) (hr : Redirects B H H') {n : Nat}
    (h : Safe S H n) {t : Tree} : Reads H' n t ↔ Reads H n t :=
  reads_iff (S := Safe S H) (fun _ hn => hn.content hs ho hr) (fun _ hn _ hm => hn.kid ho hm) h

theorem SafeH.shows {B S : List Nat} (hs : ∀ n ∈ B, n ∈ S) {H H' : Heap} (ho : Ok H) (hr : Redirects B H H') {h : Handle}
    (hh : SafeH S H h) {t : Tree} : Shows H' h t ↔ Shows H h t := by
  cases h with
  | none => exact Iff.rfl
  | some n => exact (hh n rfl).reads hs ho hr

theorem SafeH.ok {S : List Nat} {H : Heap} {h : Handle} (hh : SafeH S H h) : okHandle H h := fun n hn => (hh n hn).1

theorem safeH_some {S : List Nat} {H : Heap} {n : Nat} : SafeH S H (some n) ↔ Safe S H n :=
  ⟨fun h => h n rfl, fun h m hm => by cases hm; exact h⟩

theorem safeH_none {S : List Nat} {H : Heap} : SafeH S H none := fun _ hn => by cases hn

/-! ### Objects keep their meaning -/

def SafeAll (S : List Nat) (H : Heap) (l : List Nat) : Prop := ∀ n ∈ l, Safe S H n

theorem SafeAll.keep {B S : List Nat} (hs : ∀ n ∈ B, n ∈ S) {H H' : Heap} (ho : Ok H) (hr : Redirects B H H')
    {l : List Nat} (h : SafeAll S H l) : SafeAll S H' l := fun n hn => (h n hn).keep hs ho hr

theorem safeAll_append {S : List Nat} {H : Heap} {a b : List Nat} :
    SafeAll S H (a ++ b) ↔ SafeAll S H a ∧ SafeAll S H b := by
  simp only [SafeAll, List.mem_append]
  exact ⟨fun h => ⟨fun n hn => h n (.inl hn), fun n hn => h n (.inr hn)⟩,
    fun h n hn => hn.elim (h.1 n) (h.2 n)⟩

mutual
theorem means_of {H H' : Heap} {P : Nat → Prop} (hp : ∀ n, P n → ∀ t, Reads H n t → Reads H' n t) (v : Val) (o : Obj)
    (hs : ∀ n ∈ v.bound, P n) : Means H v o → Means H' v o := by
  match v, o with
  | .scalar _, .scalar _ => simp only [Means]; exact id
  | .view none, .view t => simp only [Means]; exact id
  | .view (some n), .view t =>
    simp only [Means, Shows]
    exact hp n (hs n (by simp [Val.bound])) t
  | .opt none, .opt none => simp only [Means]; exact id
  | .opt (some v), .opt (some o) =>
    simp only [Means, Val.bound] at hs ⊢
    exact means_of hp v o hs
  | .vec vs, .vec os =>
    simp only [Means, Val.bound] at hs ⊢
    exact meansAll_of hp vs os hs
  | .map vs, .map os =>
    simp only [Means, Val.bound] at hs ⊢
    exact meansEntries_of hp vs os hs
  | .record vs, .record os =>
    simp only [Means, Val.bound] at hs ⊢
    exact meansAll_of hp vs os hs
  | .opt none, .opt (some _) => simp [Means]
  | .opt (some _), .opt none => simp [Means]
  | .scalar _, .view _ => simp [Means]
  | .scalar _, .opt _ => simp [Means]
  | .scalar _, .vec _ => simp [Means]
  | .scalar _, .map _ => simp [Means]
  | .scalar _, .record _ => simp [Means]
  | .view _, .scalar _ => simp [Means]
  | .view _, .opt _ => simp [Means]
  | .view _, .vec _ => simp [Means]
  | .view _, .map _ => simp [Means]
  | .view _, .record _ => simp [Means]
  | .opt _, .scalar _ => simp [Means]
  | .opt _, .view _ => simp [Means]
  | .opt _, .vec _ => simp [Means]
  | .opt _, .map _ => simp [Means]
  | .opt _, .record _ => simp [Means]
  | .vec _, .scalar _ => simp [Means]
  | .vec _, .view _ => simp [Means]
  | .vec _, .opt _ => simp [Means]
  | .vec _, .map _ => simp [Means]
  | .vec _, .record _ => simp [Means]
  | .map _, .scalar _ => simp [Means]
  | .map _, .view _ => simp [Means]
  | .map _, .opt _ => simp [Means]
  | .map _, .vec _ => simp [Means]
  | .map _, .record _ => simp [Means]
  | .record _, .scalar _ => simp [Means]
  | .record _, .view _ => simp [Means]
  | .record _, .opt _ => simp [Means]
  | .record _, .vec _ => simp [Means]
  | .record _, .map _ => simp [Means]
theorem meansAll_of {H H' : Heap} {P : Nat → Prop} (hp : ∀ n, P n → ∀ t, Reads H n t → Reads H' n t)
    (vs : List Val) (os : List Obj) (hs : ∀ n ∈ Val.bounds vs, P n) : MeansAll H vs os → MeansAll H' vs os := by
  match vs, os with
  | [], [] => exact id
  | v :: vs, o :: os =>
    simp only [Val.bounds, List.mem_append] at hs
    simp only [MeansAll]
    rintro ⟨h1, h2⟩
    exact ⟨means_of hp v o (fun n hn => hs n (.inl hn)) h1, meansAll_of hp vs os (fun n hn => hs n (.inr hn)) h2⟩
  | [], _ :: _ => simp [MeansAll]
  | _ :: _, [] => simp [MeansAll]
theorem meansEntries_of {H H' : Heap} {P : Nat → Prop} (hp : ∀ n, P n → ∀ t, Reads H n t → Reads H' n t)
    (vs : List (String × Val)) (os : List (String × Obj)) (hs : ∀ n ∈ Val.boundEs vs, P n) :
    MeansEntries H vs os → MeansEntries H' vs os := by
  match vs, os with
  | [], [] => exact id
  | (k, v) :: vs, (k', o) :: os =>
    simp only [Val.boundEs, List.mem_append] at hs
    simp only [MeansEntries]
    rintro ⟨h0, h1, h2⟩
    exact ⟨h0, means_of hp v o (fun n hn => hs n (.inl hn)) h1,
      meansEntries_of hp vs os (fun n hn => hs n (.inr hn)) h2⟩
  | [], _ :: _ => simp [MeansEntries]
  | _ :: _, [] => simp [MeansEntries]
end

theorem means_keep {B S : List Nat} (hs : ∀ n ∈ B, n ∈ S) {H H' : Heap} (ho : Ok H) (hr : Redirects B H H') {v : Val}
    {o : Obj} (hv : SafeAll S H v.bound) (h : Means H v o) : Means H' v o :=
  means_of (P := Safe S H) (fun _ hn _ ht => (hn.reads hs ho hr).mpr ht) v o hv h

theorem meansAll_keep {B S : List Nat} (hs : ∀ n ∈ B, n ∈ S) {H H' : Heap} (ho : Ok H) (hr : Redirects B H H')
    {v : List Val} {o : List Obj} (hv : SafeAll S H (Val.bounds v)) (h : MeansAll H v o) : MeansAll H' v o :=
  meansAll_of (P := Safe S H) (fun _ hn _ ht => (hn.reads hs ho hr).mpr ht) v o hv h

theorem meansEntries_keep {B S : List Nat} (hs : ∀ n ∈ B, n ∈ S) {H H' : Heap} (ho : Ok H) (hr : Redirects B H H')
    {v : List (String × Val)} {o : List (String × Obj)} (hv : SafeAll S H (Val.boundEs v))
    (h : MeansEntries H v o) : MeansEntries H' v o :=
  meansEntries_of (P := Safe S H) (fun _ hn _ ht => (hn.reads hs ho hr).mpr ht) v o hv h

/-! ### Assigning -/

theorem within_null {H : Heap} {n m : Nat} (hc : H.content n = .null) (hw : Within H n m) : m = n := by
  cases hw with
  | self => rfl
  | kid hk _ => rw [hc] at hk; simp [Content.kids] at hk

/-- A view that is assigned shows what is assigned, and goes on doing so while other nodes are
redirected. -/
theorem assign_shows {R : List Nat} {H : Heap} (ho : Ok H) {h r : Handle} (hh : okHandle H h)
    (hR : okBound H R) (hn : ∀ n, h = some n → n ∉ R) (hs : SafeH (h.toList ++ R) H r) {t : Tree} (ht : Shows H r t) :
    Shows (assign H h r).1 (assign H h r).2 t ∧ SafeH R (assign H h r).1 (assign H h r).2 := by
  have hrd := (assign_redirects (B := h.toList) ho (h := h) (r := r)
    (fun n hn => by subst hn; simp) hh hs.ok).1
  have hnew : ∀ H1, H1.content H.nodes = .null → H1.nodes = H.nodes + 1 → Safe R H1 H.nodes := by
    intro H1 hc hl
    refine ⟨by omega, fun b hb hw => ?_⟩
    have := within_null hc hw
    have := hR b hb
    omega
  cases r with
  | some m =>
    have hm := hs m rfl
    have hkeep : Reads (assign H h (some m)).1 m t ∧ Safe R (assign H h (some m)).1 m :=
      ⟨(hm.reads (fun n hn => by simp only [List.mem_append]; exact .inl hn) ho hrd).mpr ht,
        (hm.keep (fun n hn => by simp only [List.mem_append]; exact .inl hn) ho hrd).mono sub_right⟩
    cases h with
    | none => exact ⟨hkeep.1, safeH_some.mpr hkeep.2⟩
    | some n =>
      simp only [assign] at hkeep ⊢
      by_cases hrf : H.ref n = H.ref m
      · simp only [hrf, if_true, Shows] at hkeep ⊢
        have hc : H.content n = H.content m := by simp [Heap.content, hrf]
        refine ⟨?_, safeH_some.mpr ⟨hh n rfl, ?_⟩⟩
        · cases t <;> simp only [Reads, hc] at hkeep ⊢ <;> exact hkeep.1
        · intro b hb hw
          cases hw with
          | self => exact hn n rfl hb
          | kid hk hw' => rw [hc] at hk; exact hkeep.2.2 b hb (.kid hk hw')
      · simp only [hrf, if_false, Shows] at hkeep ⊢
        exact ⟨hkeep.1, safeH_some.mpr hkeep.2⟩
  | none =>
    simp only [Shows] at ht
    subst ht
    cases h with
    | none =>
      have hc : (H.alloc .null).1.content H.nodes = .null := by simp [Heap.alloc, Heap.content]
      exact ⟨hc, safeH_some.mpr (hnew _ hc rfl)⟩
    | some n =>
      have hlt := hh n rfl
      have hc : (assign H (some n) none).1.content H.nodes = .null := by
        have hne : H.nodes ≠ n := by omega
        simp [assign, Heap.ensure, Heap.alloc, Heap.setRef, Heap.content, hne]
      exact ⟨hc, safeH_some.mpr (hnew _ hc rfl)⟩

/-- The views of the two objects do not stand in each other's way. -/
def Apart (l R : List Nat) : Prop := l.Nodup ∧ ∀ n ∈ l, n ∉ R

theorem Apart.left {a b R : List Nat} (h : Apart (a ++ b) R) : Apart a (b ++ R) := by
  obtain ⟨h1, h2⟩ := h
  rw [List.nodup_append] at h1
  refine ⟨h1.1, fun n hn hc => ?_⟩
  rcases List.mem_append.mp hc with hc | hc
  · exact h1.2.2 n hn n hc rfl
  · exact h2 n (by simp [hn]) hc

theorem Apart.right {a b R : List Nat} (h : Apart (a ++ b) R) : Apart b R := by
  obtain ⟨h1, h2⟩ := h
  rw [List.nodup_append] at h1
  exact ⟨h1.2.1, fun n hn => h2 n (by simp [hn])⟩

mutual
theorem moveAssign_means {R : List Nat} (t : Ty) (a b : Val) (o : Obj) (H : Heap) (ho : Ok H)
    (ha : okBound H a.bound) (hR : okBound H R) (hap : Apart a.bound R) (hs : SafeAll (a.bound ++ R) H b.bound)
    (hm : Means H b o) :
    Means (moveAssign t a b H).2 (moveAssign t a b H).1 o ∧
      SafeAll R (moveAssign t a b H).2 (moveAssign t a b H).1.bound := by
  have hdef : Means H b o ∧ SafeAll R H b.bound := ⟨hm, fun n hn => (hs n hn).mono sub_right⟩
  match t with
  | .scalar _ => simpa only [moveAssign] using hdef
  | .vec _ => simpa only [moveAssign] using hdef
  | .map _ => simpa only [moveAssign] using hdef
  | .view =>
    cases a with
    | view x =>
      cases b with
      | view y =>
        cases o with
        | view tr =>
          rw [view_bound] at ha hap hs
          simp only [moveAssign, Means] at hm ⊢
          rw [view_bound] at hs
          have := assign_shows (R := R) ho (h := x) (r := y)
            (fun n hn => ha n (by subst hn; simp)) hR (fun n hn => hap.2 n (by subst hn; simp))
            (fun n hn => hs n (by subst hn; simp)) hm
          refine ⟨this.1, ?_⟩
          rw [view_bound]
          intro n hn
          simp only [Option.mem_toList] at hn
          exact this.2 n hn
        | _ => simp [Means] at hm
      | _ => simpa only [moveAssign] using hdef
    | _ => simpa only [moveAssign] using hdef
  | .opt t =>
    cases a with
    | opt x =>
      cases b with
      | opt y =>
        cases x with
        | none => simpa only [moveAssign] using hdef
        | some x =>
          cases y with
          | none => simpa only [moveAssign] using hdef
          | some y =>
            cases o with
            | opt o =>
              cases o with
              | none => simp [Means] at hm
              | some o =>
                simp only [moveAssign, Val.bound, Means] at ha hap hs hm ⊢
                exact moveAssign_means t x y o H ho ha hR hap hs hm
            | _ => simp [Means] at hm
      | _ => simpa only [moveAssign] using hdef
    | _ => simpa only [moveAssign] using hdef
  | .tup fs =>
    cases a with
    | record as =>
      cases b with
      | record bs =>
        cases o with
        | record os =>
          simp only [moveAssign, Val.bound, Means] at ha hap hs hm ⊢
          exact moveAssigns_means fs as bs os H ho ha hR hap hs hm
        | _ => simp [Means] at hm
      | _ => simpa only [moveAssign] using hdef
    | _ => simpa only [moveAssign] using hdef
  | .obj fs =>
    cases a with
    | record as =>
      cases b with
      | record bs =>
        cases o with
        | record os =>
          simp only [moveAssign, Val.bound, Means] at ha hap hs hm ⊢
          exact moveAssigns_means fs as bs os H ho ha hR hap hs hm
        | _ => simp [Means] at hm
      | _ => simpa only [moveAssign] using hdef
    | _ => simpa only [moveAssign] using hdef
theorem moveAssigns_means {R : List Nat} (fs : Flds) (as bs : List Val) (os : List Obj) (H : Heap) (ho : Ok H)
    (ha : okBound H (Val.bounds as)) (hR : okBound H R) (hap : Apart (Val.bounds as) R)
    (hs : SafeAll (Val.bounds as ++ R) H (Val.bounds bs)) (hm : MeansAll H bs os) :
    MeansAll (moveAssigns fs as bs H).2 (moveAssigns fs as bs H).1 os ∧
      SafeAll R (moveAssigns fs as bs H).2 (Val.bounds (moveAssigns fs as bs H).1) := by
  have hdef : MeansAll H bs os ∧ SafeAll R H (Val.bounds bs) := ⟨hm, fun n hn => (hs n hn).mono sub_right⟩
  match fs, as, bs, os with
  | .nil, _, _, _ => simpa only [moveAssigns] using hdef
  | .cons _ _ _, [], _, _ => simpa only [moveAssigns] using hdef
  | .cons _ _ _, _ :: _, [], _ => simpa only [moveAssigns] using hdef
  | .cons _ t fs, a :: as, b :: bs, [] => simp [MeansAll] at hm
  | .cons _ t fs, a :: as, b :: bs, o :: os =>
    simp only [Val.bounds] at ha hap hs
    rw [okBound_append] at ha
    rw [safeAll_append] at hs
    simp only [MeansAll] at hm
    have hg := moveAssign_good (B := a.bound) t a b H ho (fun n hn => hn) ha.1
      (fun n hn => (hs.1 n hn).1)
    have h1 := moveAssign_means (R := Val.bounds as ++ R) t a b o H ho ha.1
      (okBound_append.mpr ⟨ha.2, hR⟩) hap.left (by rw [← List.append_assoc]; exact hs.1) hm.1
    have hsub : ∀ n ∈ a.bound, n ∈ a.bound ++ Val.bounds as ++ R := fun n hn => by simp [hn]
    have h2 := moveAssigns_means (R := R) fs as bs os (moveAssign t a b H).2 hg.1.ok
      (okBound_mono hg.1.nodes ha.2) (okBound_mono hg.1.nodes hR) hap.right
      (fun n hn => ((hs.2 n hn).keep hsub ho hg.1).mono (by rw [List.append_assoc]; exact sub_right))
      (meansAll_keep hsub ho hg.1 hs.2 hm.2)
    have hg2 := moveAssigns_good (B := Val.bounds as) fs as bs (moveAssign t a b H).2 hg.1.ok (fun n hn => hn)
      (okBound_mono hg.1.nodes ha.2) (fun n hn => Nat.lt_of_lt_of_le ((hs.2 n hn).1) hg.1.nodes)
    have hsub2 : ∀ n ∈ Val.bounds as, n ∈ Val.bounds as ++ R := fun n hn => by simp [hn]
    simp only [moveAssigns, MeansAll, Val.bounds]
    exact ⟨⟨means_keep hsub2 hg.1.ok hg2.1 h1.2 h1.1, h2.1⟩,
      safeAll_append.mpr ⟨fun n hn => ((h1.2 n hn).keep hsub2 hg.1.ok hg2.1).mono sub_right, h2.2⟩⟩
end

/-! ### Reading -/

/-- The call does what the tree says: it gives the object, whose views will not be disturbed by redirecting
nodes of `R`, or fails. -/
def Agrees (R : List Nat) (r : Res Val) : Option Obj → Prop
  | some o => r.stop = .ok ∧ Means r.heap r.out o ∧ SafeAll R r.heap r.out.bound
  | none => r.stop = .fail

def AgreesAll (R : List Nat) (r : Res (List Val)) : Option (List Obj) → Prop
  | some os => r.stop = .ok ∧ MeansAll r.heap r.out os ∧ SafeAll R r.heap (Val.bounds r.out)
  | none => r.stop = .fail

mutual
theorem fresh_hasTy (t : Ty) : HasTy t t.fresh := by
  match t with
  | .scalar _ => simp [Ty.fresh, HasTy]
  | .view => simp [Ty.fresh, HasTy]
  | .opt _ => simp [Ty.fresh, HasTy]
  | .vec _ => simp [Ty.fresh, HasTy]
  | .map _ => simp [Ty.fresh, HasTy]
  | .tup fs => simp only [Ty.fresh, HasTy]; exact freshs_hasTy fs
  | .obj fs => simp only [Ty.fresh, HasTy]; exact freshs_hasTy fs
theorem freshs_hasTy (fs : Flds) : HasTys fs fs.fresh := by
  match fs with
  | .nil => simp [Flds.fresh, HasTys]
  | .cons _ t rest => simp only [Flds.fresh, HasTys]; exact ⟨fresh_hasTy t, freshs_hasTy rest⟩
end

theorem shows_get {H : Heap} {h : Handle} {tr : Tree} (hs : Shows H h tr) :
    match tr with
    | .null => H.get h = .null
    | .scalar s => H.get h = .scalar s
    | .seq ts => ∃ ns, H.get h = .seq ns ∧ ReadsSeq H ns ts
    | .map es => ∃ ms, H.get h = .map ms ∧ ReadsMap H ms es := by
  cases h with
  | none => simp only [Shows] at hs; subst hs; rfl
  | some n =>
    simp only [Shows] at hs
    cases tr <;> simp only [Reads] at hs <;> exact hs

theorem SafeH.kids {S : List Nat} {H : Heap} (ho : Ok H) {h : Handle} (hh : SafeH S H h) :
    SafeAll S H (H.get h).kids := by
  cases h with
  | none => simp [Heap.get, Content.kids, SafeAll]
  | some n => exact fun m hm => (hh n rfl).kid ho hm

/-- What is known of reading into a fresh object. -/
structure Reader (R : List Nat) (f : Handle → Heap → Res Val) (g : Tree → Option Obj) : Prop where
  good : ∀ h H, Ok H → okHandle H h → Good [] H (f h H).heap (f h H).out.bound
  means : ∀ h H tr, Ok H → okBound H R → SafeH R H h → Shows H h tr → Agrees R (f h H) (g tr)

theorem nil_sub {S : List Nat} : ∀ n ∈ ([] : List Nat), n ∈ S := fun _ hn => by cases hn

theorem readsSeq_keep {B S : List Nat} (hs : ∀ n ∈ B, n ∈ S) {H H' : Heap} (ho : Ok H) (hr : Redirects B H H')
    {ns : List Nat} (hn : SafeAll S H ns) {ts : Trees} (h : ReadsSeq H ns ts) : ReadsSeq H' ns ts :=
  readsSeq_of (S := Safe S H) (fun _ hn => hn.content hs ho hr) (fun _ hn _ hm => hn.kid ho hm) ns hn ts h

theorem readsMap_keep {B S : List Nat} (hs : ∀ n ∈ B, n ∈ S) {H H' : Heap} (ho : Ok H) (hr : Redirects B H H')
    {ns : List (String × Nat)} (hn : SafeAll S H (ns.map (·.2))) {ts : Entries} (h : ReadsMap H ns ts) :
    ReadsMap H' ns ts :=
  readsMap_of (S := Safe S H) (fun _ hn => hn.content hs ho hr) (fun _ hn _ hm => hn.kid ho hm) ns
    (fun e he => hn _ (List.mem_map.mpr ⟨e, he, rfl⟩)) ts h

theorem meansAll_append {H : Heap} : ∀ (vs : List Val) (os : List Obj) (v : Val) (o : Obj), MeansAll H vs os →
    Means H v o → MeansAll H (vs ++ [v]) (os ++ [o])
  | [], [], _, _, _, h => ⟨h, trivial⟩
  | _ :: vs, _ :: os, v, o, h, h' => by
    simp only [MeansAll, List.cons_append] at h ⊢
    exact ⟨h.1, meansAll_append vs os v o h.2 h'⟩
  | [], _ :: _, _, _, h, _ => by simp [MeansAll] at h
  | _ :: _, [], _, _, h, _ => by simp [MeansAll] at h

theorem meansEntries_append {H : Heap} : ∀ (vs : List (String × Val)) (os : List (String × Obj)) (k : String)
    (v : Val) (o : Obj), MeansEntries H vs os → Means H v o → MeansEntries H (vs ++ [(k, v)]) (os ++ [(k, o)])
  | [], [], _, _, _, _, h => ⟨rfl, h, trivial⟩
  | (_, _) :: vs, (_, _) :: os, k, v, o, h, h' => by
    simp only [MeansEntries, List.cons_append] at h ⊢
    exact ⟨h.1, h.2.1, meansEntries_append vs os k v o h.2.2 h'⟩
  | [], _ :: _, _, _, _, h, _ => by simp [MeansEntries] at h
  | _ :: _, [], _, _, _, h, _ => by simp [MeansEntries] at h

theorem meansEntries_any {H : Heap} (k : String) : ∀ (vs : List (String × Val)) (os : List (String × Obj)),
    MeansEntries H vs os → (vs.any fun e => e.1 == k) = os.any fun e => e.1 == k
  | [], [], _ => rfl
  | (_, _) :: vs, (_, _) :: os, h => by
    simp only [MeansEntries] at h
    simp only [List.any_cons, h.1, meansEntries_any k vs os h.2.2]
  | [], _ :: _, h => by simp [MeansEntries] at h
  | _ :: _, [], h => by simp [MeansEntries] at h

theorem readEach_means {R : List Nat} {f : Handle → Heap → Res Val} {g : Tree → Option Obj} (hf : Reader R f g) :
    ∀ (ns : List Nat) (ts : Trees) (acc : List Val) (os : List Obj) (H : Heap), Ok H → okBound H R →
      SafeAll R H ns → ReadsSeq H ns ts → MeansAll H acc os → SafeAll R H (Val.bounds acc) →
      AgreesAll R (readEach f ns acc H) ((ts.toList.mapM g).map (os ++ ·)) := by
  intro ns
  induction ns with
  | nil =>
    intro ts acc os H ho hR hn hr hm hs
    cases ts with
    | cons _ _ => simp [ReadsSeq] at hr
    | nil =>
      have : (Trees.nil.toList.mapM g).map (os ++ ·) = some os := by simp [Trees.toList]
      rw [this]
      exact ⟨rfl, hm, hs⟩
  | cons n ns ih =>
    intro ts acc os H ho hR hn hr hm hs
    cases ts with
    | nil => simp [ReadsSeq] at hr
    | cons t ts =>
      simp only [ReadsSeq] at hr
      have hn1 : Safe R H n := hn n (by simp)
      have hg := hf.good (some n) H ho (okHandle_some hn1.1)
      have ha := hf.means (some n) H t ho hR (safeH_some.mpr hn1) hr.1
      simp only [Trees.toList, List.mapM_cons]
      cases hgt : g t with
      | none =>
        rw [hgt] at ha
        simp only [Agrees] at ha
        simp [readEach, ha, AgreesAll]
      | some o =>
        rw [hgt] at ha
        simp only [Agrees] at ha
        have hn2 : SafeAll R H ns := fun m hm => hn m (by simp [hm])
        have h2 := ih ts (acc ++ [(f (some n) H).out]) (os ++ [o]) (f (some n) H).heap hg.1.ok
          (okBound_mono hg.1.nodes hR) (hn2.keep nil_sub ho hg.1) (readsSeq_keep nil_sub ho hg.1 hn2 hr.2)
          (meansAll_append _ _ _ _ (meansAll_keep nil_sub ho hg.1 hs hm) ha.2.1)
          (by rw [bounds_append, safeAll_append]
              refine ⟨hs.keep nil_sub ho hg.1, ?_⟩
              simp only [Val.bounds, List.append_nil]
              exact ha.2.2)
        unfold readEach
        rw [ha.1]
        simp only
        cases hmm : ts.toList.mapM g with
        | none => rw [hmm] at h2; simpa using h2
        | some os' => rw [hmm] at h2; simpa using h2

theorem readEntries_means {R : List Nat} {f : Handle → Heap → Res Val} {g : Tree → Option Obj} (hf : Reader R f g) :
    ∀ (ns : List (String × Nat)) (ts : Entries) (acc : List (String × Val)) (os : List (String × Obj)) (H : Heap),
      Ok H → okBound H R → SafeAll R H (ns.map (·.2)) → ReadsMap H ns ts → MeansEntries H acc os →
      SafeAll R H (Val.boundEs acc) →
      match (ts.toList.mapM fun e => (g e.2).map fun o => (e.1, o)) with
      | none => (readEntries f ns acc H).stop = .fail
      | some es => (readEntries f ns acc H).stop = .ok ∧
          MeansEntries (readEntries f ns acc H).heap (readEntries f ns acc H).out
            (es.foldl (fun acc e => keepFirst acc e.1 e.2) os) ∧
          SafeAll R (readEntries f ns acc H).heap (Val.boundEs (readEntries f ns acc H).out) := by
  intro ns
  induction ns with
  | nil =>
    intro ts acc os H ho hR hn hr hm hs
    cases ts with
    | cons _ _ _ => simp [ReadsMap] at hr
    | nil => exact ⟨rfl, hm, hs⟩
  | cons e ns ih =>
    obtain ⟨k, n⟩ := e
    intro ts acc os H ho hR hn hr hm hs
    cases ts with
    | nil => simp [ReadsMap] at hr
    | cons k' t ts =>
      simp only [ReadsMap] at hr
      obtain ⟨rfl, hr1, hr2⟩ := hr
      have hn1 : Safe R H n := hn n (by simp)
      have hg := hf.good (some n) H ho (okHandle_some hn1.1)
      have ha := hf.means (some n) H t ho hR (safeH_some.mpr hn1) hr1
      simp only [Entries.toList, List.mapM_cons]
      cases hgt : g t with
      | none =>
        rw [hgt] at ha
        simp only [Agrees] at ha
        simp [readEntries, ha]
      | some o =>
        rw [hgt] at ha
        simp only [Agrees] at ha
        have hn2 : SafeAll R H (ns.map (·.2)) := fun m hm => hn m (by simp only [List.map_cons, List.mem_cons]; exact .inr hm)
        have hm' := meansEntries_keep nil_sub ho hg.1 hs hm
        have hs' := hs.keep nil_sub ho hg.1
        have h2 := ih ts (emplace acc k (f (some n) H).out) (keepFirst os k o) (f (some n) H).heap hg.1.ok
          (okBound_mono hg.1.nodes hR) (hn2.keep nil_sub ho hg.1) (readsMap_keep nil_sub ho hg.1 hn2 hr2)
          (by
            unfold emplace keepFirst
            rw [meansEntries_any k _ _ hm']
            split
            · exact hm'
            · exact meansEntries_append _ _ _ _ _ hm' ha.2.1)
          (by
            unfold emplace
            split
            · exact hs'
            · rw [boundEs_append, safeAll_append]
              refine ⟨hs', ?_⟩
              simp only [Val.boundEs, List.append_nil]
              exact ha.2.2)
        unfold readEntries
        rw [ha.1]
        simp only
        cases hmm : (ts.toList.mapM fun e => (g e.2).map fun o => (e.1, o)) with
        | none => rw [hmm] at h2; simpa [hmm] using h2
        | some os' => rw [hmm] at h2; simpa [hmm] using h2

theorem readsSeq_get {H : Heap} : ∀ (ns : List Nat) (ts : Trees) (i : Nat), ReadsSeq H ns ts →
    Shows H ns[i]? ((ts.toList.drop i).headD .null) ∧ ns.length = ts.toList.length
  | [], .nil, i, _ => by simp [Shows, Trees.toList]
  | n :: ns, .cons t ts, 0, h => by
    simp only [ReadsSeq] at h
    have := (readsSeq_get ns ts 0 h.2).2
    simp [Shows, Trees.toList, h.1, this]
  | n :: ns, .cons t ts, i + 1, h => by
    simp only [ReadsSeq] at h
    have := readsSeq_get ns ts i h.2
    refine ⟨?_, by simp [Trees.toList, this.2]⟩
    simp only [Trees.toList, List.drop_succ_cons, List.getElem?_cons_succ]
    exact this.1
  | [], .cons _ _, _, h => by simp [ReadsSeq] at h
  | _ :: _, .nil, _, h => by simp [ReadsSeq] at h

theorem readsMap_lookup {H : Heap} (k : String) : ∀ (ns : List (String × Nat)) (ts : Entries), ReadsMap H ns ts →
    Shows H (ns.lookup k) ((ts.toList.lookup k).getD .null)
  | [], .nil, _ => by simp [Shows, Entries.toList]
  | (k', n) :: ns, .cons k'' t ts, h => by
    simp only [ReadsMap] at h
    obtain ⟨rfl, h1, h2⟩ := h
    simp only [Entries.toList, List.lookup_cons]
    cases k == k' with
    | true => exact h1
    | false => exact readsMap_lookup k ns ts h2
  | [], .cons _ _ _, h => by simp [ReadsMap] at h
  | _ :: _, .nil, h => by simp [ReadsMap] at h

theorem lookup_eq {H : Heap} {h : Handle} {es : List (String × Nat)} (he : H.get h = .map es) (k : String) :
    lookup H h k = match es.lookup k with | some n => .node n | none => .missing := by
  simp only [lookup, he]
  cases es.lookup k <;> rfl

/-- Reading parts one after the other. -/
theorem agrees_cons {R : List Nat} {t : Ty} {v : Val} {vs : List Val} {h : Handle} {H : Heap} (ho : Ok H)
    {k : Res (List Val)} (hR : okBound H (v.bound ++ (Val.bounds vs ++ R))) (hh : okHandle H h)
    {o : Option Obj} {os : Option (List Obj)} (ha : Agrees (Val.bounds vs ++ R) (read t v h H) o)
    (hk : (read t v h H).stop = .ok → Redirects (Val.bounds vs) (read t v h H).heap k.heap ∧ AgreesAll R k os) :
    AgreesAll R
      (match (read t v h H).stop with
        | .ok => k.map ((read t v h H).out :: ·)
        | e => ⟨e, (read t v h H).out :: vs, (read t v h H).heap⟩)
      (do let o ← o; let os ← os; some (o :: os)) := by
  have hg := read_good (B := v.bound) t v h H ho (fun n hn => hR n (sub_left n hn)) (fun n hn => hn) hh
  cases o with
  | none =>
    simp only [Agrees] at ha
    simp [ha, AgreesAll]
  | some o =>
    simp only [Agrees] at ha
    obtain ⟨ha1, ha2, ha3⟩ := ha
    obtain ⟨hr, hk⟩ := hk ha1
    rw [ha1]
    cases os with
    | none =>
      simp only [AgreesAll] at hk
      simp [Res.map, AgreesAll, hk]
    | some os =>
      simp only [AgreesAll] at hk
      simp only [Res.map, AgreesAll, MeansAll, Val.bounds, Option.bind_eq_bind, Option.bind_some]
      exact ⟨hk.1, ⟨means_keep sub_left hg.1.ok hr ha3 ha2, hk.2.1⟩,
        safeAll_append.mpr ⟨fun n hn => ((ha3 n hn).keep sub_left hg.1.ok hr).mono sub_right, hk.2.2⟩⟩

mutual
theorem read_means {R : List Nat} (t : Ty) (v : Val) (h : Handle) (H : Heap) (tr : Tree) (ho : Ok H)
    (hR : okBound H (v.bound ++ R)) (hty : HasTy t v) (hap : Apart v.bound R) (hs : SafeH (v.bound ++ R) H h)
    (hsh : Shows H h tr) : Agrees R (read t v h H) (ofTree t tr) := by
  have hget := shows_get hsh
  match t with
  | .scalar p =>
    cases tr with
    | scalar s =>
      simp only at hget
      simp only [read, readScalar, hget, ofTree]
      split
      · exact ⟨rfl, rfl, by simp [Val.bound, SafeAll]⟩
      · rfl
    | null => simp only at hget; simp only [read, readScalar, hget, ofTree, Agrees]
    | seq ts => obtain ⟨ns, hget, -⟩ := hget; simp only [read, readScalar, hget, ofTree, Agrees]
    | map ts => obtain ⟨ns, hget, -⟩ := hget; simp only [read, readScalar, hget, ofTree, Agrees]
  | .view =>
    cases v with
    | view old =>
      rw [view_bound] at hR hap hs
      rw [okBound_append] at hR
      have := assign_shows (R := R) ho (h := old) (r := h) (fun n hn => hR.1 n (by subst hn; simp)) hR.2
        (fun n hn => hap.2 n (by subst hn; simp)) hs hsh
      have hof : ofTree .view tr = some (.view tr) := by cases tr <;> rfl
      rw [hof]
      refine ⟨rfl, this.1, ?_⟩
      simp only [read, readView]
      rw [view_bound]
      intro n hn
      simp only [Option.mem_toList] at hn
      exact this.2 n hn
    | _ => simp [HasTy] at hty
  | .opt t =>
    have hnull : H.get h = .null → tr = .null := by
      intro hg
      cases tr <;> simp only [hg] at hget
      · rfl
      · cases hget
      · obtain ⟨_, h, _⟩ := hget; cases h
      · obtain ⟨_, h, _⟩ := hget; cases h
    cases hc : (H.get h).isNull with
    | true =>
      have hn : H.get h = .null := by cases hg : H.get h <;> simp [hg, Content.isNull] at hc <;> rfl
      have := hnull hn
      subst this
      simp only [read, hc, if_true, ofTree]
      exact ⟨rfl, trivial, by simp [Val.bound, SafeAll]⟩
    | false =>
      have htr : ofTree (.opt t) tr = (ofTree t tr).map fun o => .opt (some o) := by
        cases tr with
        | null => simp only at hget; rw [hget] at hc; simp [Content.isNull] at hc
        | _ => rfl
      rw [htr]
      have hB : okBound H ((Ty.fresh t).bound ++ (v.bound ++ R)) := by rw [fresh_bound]; exact hR
      have hg := read_good (B := []) t t.fresh h H ho (by simp [okBound]) (by rw [fresh_bound]; simp) hs.ok
      have ha := read_means (R := v.bound ++ R) t t.fresh h H tr ho hB (fresh_hasTy t)
        (by rw [fresh_bound]; exact ⟨List.nodup_nil, by simp⟩) (by rw [fresh_bound]; exact hs) hsh
      simp only [read, hc, Bool.false_eq_true, if_false]
      cases hof : ofTree t tr with
      | none =>
        rw [hof] at ha
        simp only [Agrees] at ha
        simp [ha, Agrees]
      | some o =>
        rw [hof] at ha
        simp only [Agrees] at ha
        obtain ⟨ha1, ha2, ha3⟩ := ha
        rw [ha1]
        simp only [Option.map_some, Agrees, true_and]
        cases v with
        | opt w =>
          cases w with
          | none =>
            simp only [storeOpt, Means, Val.bound]
            exact ⟨ha2, fun n hn => (ha3 n hn).mono sub_right⟩
          | some x =>
            simp only [storeOpt, Val.bound, Means] at hR hap ha3 ⊢
            rw [okBound_append] at hR
            exact moveAssign_means t x _ o _ hg.1.ok (okBound_mono hg.1.nodes hR.1) (okBound_mono hg.1.nodes hR.2)
              hap ha3 ha2
        | _ => simp [HasTy] at hty
  | .vec t =>
    cases tr with
    | seq ts =>
      obtain ⟨ns, hget, hr⟩ := hget
      have hk := hs.kids ho
      rw [hget] at hk
      have hrd : Reader R (fun h H => read t t.fresh h H) (ofTree t) :=
        ⟨fun h H ho hh => read_good (B := []) t t.fresh h H ho (by simp [okBound]) (by rw [fresh_bound]; simp) hh,
          fun h H tr ho hR hs hsh => read_means t t.fresh h H tr ho (by rw [fresh_bound]; exact hR) (fresh_hasTy t)
            (by rw [fresh_bound]; exact ⟨List.nodup_nil, by simp⟩) (by rw [fresh_bound]; exact hs) hsh⟩
      have := readEach_means hrd ns ts [] [] H ho (fun n hn => hR n (sub_right n hn))
        (fun n hn => (hk n hn).mono sub_right) hr trivial (by simp [Val.bounds, SafeAll])
      simp only [List.nil_append] at this
      simp only [read, hget, ofTree, Res.map]
      cases hm : ts.toList.mapM (ofTree t) with
      | none => rw [hm] at this; exact this
      | some os =>
        rw [hm] at this
        simp only [Option.map_some, Agrees, Means, Val.bound]
        exact this
    | null => simp only at hget; simp only [read, hget, ofTree, Agrees]
    | scalar s => simp only at hget; simp only [read, hget, ofTree, Agrees]
    | map ts => obtain ⟨ns, hget, -⟩ := hget; simp only [read, hget, ofTree, Agrees]
  | .map t =>
    cases tr with
    | map ts =>
      obtain ⟨ns, hget, hr⟩ := hget
      have hk := hs.kids ho
      rw [hget] at hk
      have hrd : Reader R (fun h H => read t t.fresh h H) (ofTree t) :=
        ⟨fun h H ho hh => read_good (B := []) t t.fresh h H ho (by simp [okBound]) (by rw [fresh_bound]; simp) hh,
          fun h H tr ho hR hs hsh => read_means t t.fresh h H tr ho (by rw [fresh_bound]; exact hR) (fresh_hasTy t)
            (by rw [fresh_bound]; exact ⟨List.nodup_nil, by simp⟩) (by rw [fresh_bound]; exact hs) hsh⟩
      have := readEntries_means hrd ns ts [] [] H ho (fun n hn => hR n (sub_right n hn))
        (fun n hn => (hk n hn).mono sub_right) hr trivial (by simp [Val.boundEs, SafeAll])
      simp only [read, hget, ofTree, Res.map]
      cases hm : (ts.toList.mapM fun e => (ofTree t e.2).map fun o => (e.1, o)) with
      | none => rw [hm] at this; exact this
      | some os =>
        rw [hm] at this
        simp only [Option.map_some, Agrees, Means, Val.bound]
        exact this
    | null => simp only at hget; simp only [read, hget, ofTree, Agrees]
    | scalar s => simp only at hget; simp only [read, hget, ofTree, Agrees]
    | seq ts => obtain ⟨ns, hget, -⟩ := hget; simp only [read, hget, ofTree, Agrees]
  | .tup fs =>
    cases v with
    | record vs =>
      simp only [HasTy, Val.bound] at hty hR hap hs
      cases tr with
      | seq ts =>
        obtain ⟨ns, hget, hr⟩ := hget
        have hlen := (readsSeq_get ns ts 0 hr).2
        simp only [read, hget, ofTree, hlen, Val.parts]
        split
        · rfl
        · have := readIndexed_means fs vs h 0 H ns ts ho hR hty hap hs hget hr
          simp only [List.drop_zero] at this
          simp only [Res.map]
          cases hof : ofSeq fs ts.toList with
          | none => rw [hof] at this; exact this
          | some os => rw [hof] at this; simp only [Option.map_some, Agrees, Means, Val.bound]; exact this
      | null => simp only at hget; simp only [read, hget, ofTree, Agrees]
      | scalar s => simp only at hget; simp only [read, hget, ofTree, Agrees]
      | map ts => obtain ⟨ns, hget, -⟩ := hget; simp only [read, hget, ofTree, Agrees]
    | _ => simp [HasTy] at hty
  | .obj fs =>
    cases v with
    | record vs =>
      simp only [HasTy, Val.bound] at hty hR hap hs
      cases tr with
      | seq ts =>
        obtain ⟨ns, hget, hr⟩ := hget
        have hlen := (readsSeq_get ns ts 0 hr).2
        simp only [read, hget, ofTree, hlen, Val.parts]
        split
        · rfl
        · have := readIndexed_means fs vs h 0 H ns ts ho hR hty hap hs hget hr
          simp only [List.drop_zero] at this
          simp only [Res.map]
          cases hof : ofSeq fs ts.toList with
          | none => rw [hof] at this; exact this
          | some os => rw [hof] at this; simp only [Option.map_some, Agrees, Means, Val.bound]; exact this
      | map ts =>
        obtain ⟨ns, hget, hr⟩ := hget
        simp only [read, hget, ofTree, Val.parts]
        have := readFields_means fs vs h H ns ts ho hR hty hap hs hget hr
        simp only [Res.map]
        cases hof : ofMap fs ts.toList with
        | none => rw [hof] at this; exact this
        | some os => rw [hof] at this; simp only [Option.map_some, Agrees, Means, Val.bound]; exact this
      | null => simp only at hget; simp only [read, hget, ofTree, Agrees]
      | scalar s => simp only at hget; simp only [read, hget, ofTree, Agrees]
    | _ => simp [HasTy] at hty
theorem readIndexed_means {R : List Nat} (fs : Flds) (vs : List Val) (h : Handle) (i : Nat) (H : Heap)
    (ns : List Nat) (ts : Trees) (ho : Ok H) (hR : okBound H (Val.bounds vs ++ R)) (hty : HasTys fs vs)
    (hap : Apart (Val.bounds vs) R) (hs : SafeH (Val.bounds vs ++ R) H h) (hget : H.get h = .seq ns)
    (hr : ReadsSeq H ns ts) : AgreesAll R (readIndexed fs vs h i H) (ofSeq fs (ts.toList.drop i)) := by
  match fs, vs with
  | .nil, [] =>
    simp only [readIndexed, ofSeq, AgreesAll]
    exact ⟨trivial, trivial, by simp [Val.bounds, SafeAll]⟩
  | .nil, _ :: _ => simp [HasTys] at hty
  | .cons _ _ _, [] => simp [HasTys] at hty
  | .cons _ t fs, v :: vs =>
    simp only [Val.bounds] at hR hap hs
    rw [List.append_assoc] at hR hs
    simp only [HasTys] at hty
    have hkids := hs.kids ho
    rw [hget] at hkids
    have hat : atIndex H h i = ns[i]? := by simp [atIndex, hget]
    have hsi : SafeH (v.bound ++ (Val.bounds vs ++ R)) H (atIndex H h i) := by
      rw [hat]
      intro n hn
      exact hkids n (List.mem_of_getElem? hn)
    have ha := read_means (R := Val.bounds vs ++ R) t v (atIndex H h i) H ((ts.toList.drop i).headD .null) ho hR
      hty.1 hap.left hsi (by rw [hat]; exact (readsSeq_get ns ts i hr).1)
    have hg := read_good (B := v.bound) t v (atIndex H h i) H ho (fun n hn => hR n (sub_left n hn)) (fun n hn => hn)
      hsi.ok
    have htl : (ts.toList.drop i).tail = ts.toList.drop (i + 1) := by simp
    simp only [readIndexed, ofSeq, htl]
    refine agrees_cons ho hR hsi.ok ha ?_
    intro _
    have hget' : (read t v (atIndex H h i) H).heap.get h = .seq ns := by
      cases h with
      | none => exact hget
      | some n => exact ((hs n rfl).content sub_left ho hg.1).trans hget
    refine ⟨?_, readIndexed_means fs vs h (i + 1) _ ns ts hg.1.ok (okBound_mono hg.1.nodes fun n hn => hR n (sub_right n hn))
      hty.2 hap.right ((hs.keep sub_left ho hg.1).mono sub_right) hget' (readsSeq_keep sub_left ho hg.1 hkids hr)⟩
    exact (readIndexed_good (B := Val.bounds vs) fs vs h (i + 1) _ hg.1.ok
      (okBound_mono hg.1.nodes fun n hn => hR n (sub_right n (sub_left n hn))) (fun n hn => hn)
      (okHandle_mono hg.1.nodes hs.ok)).1
theorem readFields_means {R : List Nat} (fs : Flds) (vs : List Val) (h : Handle) (H : Heap)
    (ns : List (String × Nat)) (ts : Entries) (ho : Ok H) (hR : okBound H (Val.bounds vs ++ R)) (hty : HasTys fs vs)
    (hap : Apart (Val.bounds vs) R) (hs : SafeH (Val.bounds vs ++ R) H h) (hget : H.get h = .map ns)
    (hr : ReadsMap H ns ts) : AgreesAll R (readFields fs vs h H) (ofMap fs ts.toList) := by
  match fs, vs with
  | .nil, [] =>
    simp only [readFields, ofMap, AgreesAll]
    exact ⟨trivial, trivial, by simp [Val.bounds, SafeAll]⟩
  | .nil, _ :: _ => simp [HasTys] at hty
  | .cons _ _ _, [] => simp [HasTys] at hty
  | .cons name t fs, v :: vs =>
    simp only [Val.bounds] at hR hap hs
    rw [List.append_assoc] at hR hs
    simp only [HasTys] at hty
    have hkids := hs.kids ho
    rw [hget] at hkids
    have hstep : ∀ k, SafeH (v.bound ++ (Val.bounds vs ++ R)) H k → Shows H k ((ts.toList.lookup name).getD .null) →
        AgreesAll R
          (match (read t v k H).stop with
            | .ok => (readFields fs vs h (read t v k H).heap).map ((read t v k H).out :: ·)
            | e => ⟨e, (read t v k H).out :: vs, (read t v k H).heap⟩)
          (ofMap (.cons name t fs) ts.toList) := by
      intro k hk hsk
      have ha := read_means (R := Val.bounds vs ++ R) t v k H _ ho hR hty.1 hap.left hk hsk
      have hg := read_good (B := v.bound) t v k H ho (fun n hn => hR n (sub_left n hn)) (fun n hn => hn) hk.ok
      simp only [ofMap]
      refine agrees_cons ho hR hk.ok ha ?_
      intro _
      have hget' : (read t v k H).heap.get h = .map ns := by
        cases h with
        | none => exact hget
        | some n => exact ((hs n rfl).content sub_left ho hg.1).trans hget
      refine ⟨?_, readFields_means fs vs h _ ns ts hg.1.ok (okBound_mono hg.1.nodes fun n hn => hR n (sub_right n hn))
        hty.2 hap.right ((hs.keep sub_left ho hg.1).mono sub_right) hget' (readsMap_keep sub_left ho hg.1 hkids hr)⟩
      exact (readFields_good (B := Val.bounds vs) fs vs h _ hg.1.ok
        (okBound_mono hg.1.nodes fun n hn => hR n (sub_right n (sub_left n hn))) (fun n hn => hn)
        (okHandle_mono hg.1.nodes hs.ok)).1
    have hl := readsMap_lookup name ns ts hr
    simp only [readFields, lookup_eq hget]
    cases hlk : ns.lookup name with
    | none =>
      rw [hlk] at hl
      exact hstep none safeH_none hl
    | some n =>
      rw [hlk] at hl
      exact hstep (some n) (safeH_some.mpr (hkids n (lookup_mem hlk))) hl
end

/-! ### Where views of a new object lead -/

/-- The nodes `D` list nodes of `D` only. -/
structure Part (D : Nat → Prop) (H : Heap) : Prop where
  ok : Ok H
  lt : ∀ n, D n → n < H.nodes
  kids : ∀ n, D n → ∀ m ∈ (H.content n).kids, D m

theorem Part.keep {D : Nat → Prop} {H H' : Heap} (h : Part D H) (hr : Redirects [] H H') : Part D H' := by
  have hc : ∀ n, D n → H'.content n = H.content n := fun n hn => by
    unfold Heap.content
    rw [hr.ref n (h.lt n hn) (by simp), hr.data _ (h.ok.ref n (h.lt n hn))]
  exact ⟨hr.ok, fun n hn => Nat.lt_of_lt_of_le (h.lt n hn) hr.nodes,
    fun n hn m hm => h.kids n hn m (by rw [← hc n hn]; exact hm)⟩

/-- Nodes of `D` and new ones. -/
def InPart (D : Nat → Prop) (s : Nat) (l : List Nat) : Prop := ∀ b ∈ l, D b ∨ s ≤ b

theorem InPart.append {D : Nat → Prop} {s : Nat} {a b : List Nat} (ha : InPart D s a) (hb : InPart D s b) :
    InPart D s (a ++ b) := fun n hn => (List.mem_append.mp hn).elim (ha n) (hb n)

theorem InPart.mono {D : Nat → Prop} {s s' : Nat} (h : s ≤ s') {l : List Nat} (hl : InPart D s' l) : InPart D s l :=
  fun n hn => (hl n hn).imp id (Nat.le_trans h)

theorem readEach_part {D : Nat → Prop} {s : Nat} {f : Handle → Heap → Res Val}
    (hf : ∀ h H, Part D H → s ≤ H.nodes → (∀ n, h = some n → D n) →
      Redirects [] H (f h H).heap ∧ InPart D s (f h H).out.bound) :
    ∀ (ns : List Nat) (acc : List Val) (H : Heap), Part D H → s ≤ H.nodes → (∀ n ∈ ns, D n) →
      InPart D s (Val.bounds acc) → InPart D s (Val.bounds (readEach f ns acc H).out) := by
  intro ns
  induction ns with
  | nil => intro acc H _ _ _ ha; exact ha
  | cons n ns ih =>
    intro acc H hp hs hn ha
    obtain ⟨h1, h2⟩ := hf (some n) H hp hs (fun m hm => by cases hm; exact hn n (by simp))
    unfold readEach
    split
    · refine ih _ _ (hp.keep h1) (Nat.le_trans hs h1.nodes) (fun m hm => hn m (by simp [hm])) ?_
      rw [bounds_append]
      exact ha.append (by simp only [Val.bounds, List.append_nil]; exact h2)
    · exact ha

theorem readEntries_part {D : Nat → Prop} {s : Nat} {f : Handle → Heap → Res Val}
    (hf : ∀ h H, Part D H → s ≤ H.nodes → (∀ n, h = some n → D n) →
      Redirects [] H (f h H).heap ∧ InPart D s (f h H).out.bound) :
    ∀ (ns : List (String × Nat)) (acc : List (String × Val)) (H : Heap), Part D H → s ≤ H.nodes →
      (∀ n ∈ ns.map (·.2), D n) → InPart D s (Val.boundEs acc) →
      InPart D s (Val.boundEs (readEntries f ns acc H).out) := by
  intro ns
  induction ns with
  | nil => intro acc H _ _ _ ha; exact ha
  | cons e ns ih =>
    obtain ⟨k, n⟩ := e
    intro acc H hp hs hn ha
    obtain ⟨h1, h2⟩ := hf (some n) H hp hs (fun m hm => by cases hm; exact hn n (by simp))
    unfold readEntries
    split
    · refine ih _ _ (hp.keep h1) (Nat.le_trans hs h1.nodes)
        (fun m hm => hn m (by simp only [List.map_cons, List.mem_cons]; exact .inr hm)) ?_
      unfold emplace
      split
      · exact ha
      · rw [boundEs_append]
        exact ha.append (by simp only [Val.boundEs, List.append_nil]; exact h2)
    · exact ha

theorem moveAssign_fresh_bound {D : Nat → Prop} {s : Nat} {H : Heap} {h : Handle} (hs : s ≤ H.nodes)
    (hd : ∀ n, h = some n → D n) : InPart D s (Val.view (assign H none h).2).bound := by
  rw [view_bound]
  intro b hb
  cases h with
  | none =>
    simp only [assign, Heap.ensure, Heap.alloc, Option.toList, List.mem_singleton] at hb
    exact .inr (by omega)
  | some n =>
    simp only [assign, Heap.ensure, Option.toList, List.mem_singleton] at hb
    subst hb
    exact .inl (hd b rfl)

theorem get_part {D : Nat → Prop} {H : Heap} (hp : Part D H) {h : Handle} (hd : ∀ n, h = some n → D n) :
    ∀ m ∈ (H.get h).kids, D m := by
  cases h with
  | none => simp [Heap.get, Content.kids]
  | some n => exact hp.kids n (hd n rfl)

theorem nil_of_inPart {D : Nat → Prop} {s : Nat} {l : List Nat} (h : l = []) : InPart D s l := by
  subst h; intro b hb; cases hb

theorem nil_of_append {a b : List Nat} (h : a ++ b = []) : a = [] ∧ b = [] := by simpa using h

/-- Reading into an object without bound views adds nodes only. -/
theorem read_only {D : Nat → Prop} {H : Heap} (hp : Part D H) {h : Handle} (hd : ∀ n, h = some n → D n) {t : Ty} {v : Val}
    (hv : v.bound = []) : Redirects [] H (read t v h H).heap :=
  (read_good (B := []) t v h H hp.ok (by simp [okBound]) (by simp [hv]) (fun n hn => hp.lt n (hd n hn))).1

theorem assign_nodes (H : Heap) (h r : Handle) : H.nodes ≤ (assign H h r).1.nodes := by
  cases h with
  | none => cases r <;> simp [assign, Heap.ensure, Heap.alloc]
  | some n =>
    cases r with
    | none => simp [assign, Heap.ensure, Heap.alloc, Heap.setRef]
    | some m =>
      simp only [assign]
      split <;> simp [Heap.setRef]

mutual
theorem moveAssign_part {D : Nat → Prop} {s : Nat} (t : Ty) (a b : Val) (H : Heap) (hs : s ≤ H.nodes) (ha : a.bound = [])
    (hb : InPart D s b.bound) :
    InPart D s (moveAssign t a b H).1.bound ∧ s ≤ (moveAssign t a b H).2.nodes := by
  have hdef : InPart D s b.bound ∧ s ≤ H.nodes := ⟨hb, hs⟩
  match t with
  | .scalar _ => simpa only [moveAssign] using hdef
  | .vec _ => simpa only [moveAssign] using hdef
  | .map _ => simpa only [moveAssign] using hdef
  | .view =>
    cases a with
    | view x =>
      cases b with
      | view y =>
        simp only [moveAssign]
        refine ⟨?_, Nat.le_trans hs (assign_nodes H x y)⟩
        cases x with
        | some n => simp [Val.bound] at ha
        | none =>
          rw [view_bound] at hb ⊢
          intro b hb'
          cases y with
          | none =>
            simp only [assign, Heap.ensure, Heap.alloc, Option.toList, List.mem_singleton] at hb'
            exact .inr (by omega)
          | some n =>
            simp only [assign, Heap.ensure] at hb'
            exact hb b hb'
      | _ => simpa only [moveAssign] using hdef
    | _ => simpa only [moveAssign] using hdef
  | .opt t =>
    cases a with
    | opt x =>
      cases b with
      | opt y =>
        cases x with
        | none => simpa only [moveAssign] using hdef
        | some x =>
          cases y with
          | none => simpa only [moveAssign] using hdef
          | some y =>
            simp only [moveAssign, Val.bound] at ha hb ⊢
            exact moveAssign_part t x y H hs ha hb
      | _ => simpa only [moveAssign] using hdef
    | _ => simpa only [moveAssign] using hdef
  | .tup fs =>
    cases a with
    | record as =>
      cases b with
      | record bs =>
        simp only [moveAssign, Val.bound] at ha hb ⊢
        exact moveAssigns_part fs as bs H hs ha hb
      | _ => simpa only [moveAssign] using hdef
    | _ => simpa only [moveAssign] using hdef
  | .obj fs =>
    cases a with
    | record as =>
      cases b with
      | record bs =>
        simp only [moveAssign, Val.bound] at ha hb ⊢
        exact moveAssigns_part fs as bs H hs ha hb
      | _ => simpa only [moveAssign] using hdef
    | _ => simpa only [moveAssign] using hdef
theorem moveAssigns_part {D : Nat → Prop} {s : Nat} (fs : Flds) (as bs : List Val) (H : Heap) (hs : s ≤ H.nodes)
    (ha : Val.bounds as = []) (hb : InPart D s (Val.bounds bs)) :
    InPart D s (Val.bounds (moveAssigns fs as bs H).1) ∧ s ≤ (moveAssigns fs as bs H).2.nodes := by
  have hdef : InPart D s (Val.bounds bs) ∧ s ≤ H.nodes := ⟨hb, hs⟩
  match fs, as, bs with
  | .nil, _, _ => simpa only [moveAssigns] using hdef
  | .cons _ _ _, [], _ => simpa only [moveAssigns] using hdef
  | .cons _ _ _, _ :: _, [] => simpa only [moveAssigns] using hdef
  | .cons _ t fs, a :: as, b :: bs =>
    simp only [Val.bounds] at ha hb
    obtain ⟨ha1, ha2⟩ := nil_of_append ha
    have h1 := moveAssign_part t a b H hs ha1 (fun n hn => hb n (sub_left n hn))
    have h2 := moveAssigns_part fs as bs (moveAssign t a b H).2 h1.2 ha2 (fun n hn => hb n (sub_right n hn))
    simp only [moveAssigns, Val.bounds]
    exact ⟨h1.1.append h2.1, h2.2⟩
end

mutual
theorem read_part {D : Nat → Prop} {s : Nat} (t : Ty) (v : Val) (h : Handle) (H : Heap) (hp : Part D H)
    (hs : s ≤ H.nodes) (hd : ∀ n, h = some n → D n) (hv : v.bound = []) :
    InPart D s (read t v h H).out.bound := by
  match t with
  | .scalar p =>
    simp only [read, readScalar]
    split
    · split
      · exact nil_of_inPart rfl
      · exact nil_of_inPart hv
    · exact nil_of_inPart hv
  | .view =>
    cases v with
    | view old =>
      cases old with
      | some n => simp [Val.bound] at hv
      | none => simp only [read, readView]; exact moveAssign_fresh_bound hs hd
    | _ => simp only [read, readView]; exact nil_of_inPart hv
  | .opt t =>
    simp only [read]
    split
    · exact nil_of_inPart rfl
    · have h1 := read_part t t.fresh h H hp hs hd (fresh_bound t)
      split
      · cases v with
        | opt w =>
          cases w with
          | none => simp only [storeOpt, Val.bound]; exact h1
          | some x =>
            simp only [storeOpt, Val.bound] at hv ⊢
            exact (moveAssign_part t x _ _
              (Nat.le_trans hs (read_only (t := t) hp hd (fresh_bound t)).nodes) hv h1).1
        | _ => simp only [storeOpt, Val.bound]; exact h1
      · exact nil_of_inPart hv
  | .vec t =>
    simp only [read]
    split
    · rename_i ns hg
      have hk := get_part hp hd
      rw [hg] at hk
      simp only [Res.map, Val.bound]
      exact readEach_part (fun h H hp hs hd => ⟨read_only hp hd (fresh_bound t),
        read_part t t.fresh h H hp hs hd (fresh_bound t)⟩) ns [] H hp hs hk (nil_of_inPart rfl)
    · exact nil_of_inPart hv
  | .map t =>
    simp only [read]
    split
    · rename_i ns hg
      have hk := get_part hp hd
      rw [hg] at hk
      simp only [Res.map, Val.bound]
      exact readEntries_part (fun h H hp hs hd => ⟨read_only hp hd (fresh_bound t),
        read_part t t.fresh h H hp hs hd (fresh_bound t)⟩) ns [] H hp hs hk (nil_of_inPart rfl)
    · exact nil_of_inPart hv
  | .tup fs =>
    have hvp : Val.bounds v.parts = [] := by
      cases v <;> simp_all [Val.parts, Val.bounds, Val.bound]
    simp only [read]
    split
    · split
      · exact nil_of_inPart hv
      · simp only [Res.map, Val.bound]; exact readIndexed_part fs v.parts h 0 H hp hs hd hvp
    · exact nil_of_inPart hv
  | .obj fs =>
    have hvp : Val.bounds v.parts = [] := by
      cases v <;> simp_all [Val.parts, Val.bounds, Val.bound]
    simp only [read]
    split
    · simp only [Res.map, Val.bound]; exact readFields_part fs v.parts h H hp hs hd hvp
    · split
      · exact nil_of_inPart hv
      · simp only [Res.map, Val.bound]; exact readIndexed_part fs v.parts h 0 H hp hs hd hvp
    · exact nil_of_inPart hv
theorem readIndexed_part {D : Nat → Prop} {s : Nat} (fs : Flds) (vs : List Val) (h : Handle) (i : Nat) (H : Heap)
    (hp : Part D H) (hs : s ≤ H.nodes) (hd : ∀ n, h = some n → D n) (hv : Val.bounds vs = []) :
    InPart D s (Val.bounds (readIndexed fs vs h i H).out) := by
  match fs, vs with
  | .nil, _ => simp only [readIndexed]; exact nil_of_inPart hv
  | .cons _ _ _, [] => simp only [readIndexed]; exact nil_of_inPart hv
  | .cons _ t fs, v :: vs =>
    simp only [Val.bounds] at hv
    obtain ⟨hv1, hv2⟩ := nil_of_append hv
    have hdi : ∀ n, atIndex H h i = some n → D n := by
      intro n hn
      unfold atIndex at hn
      split at hn
      · rename_i ns hg
        have hk := get_part hp hd
        rw [hg] at hk
        exact hk n (List.mem_of_getElem? hn)
      · cases hn
    have h1 := read_part (s := s) t v (atIndex H h i) H hp hs hdi hv1
    have h2 := read_only (t := t) hp hdi hv1
    simp only [readIndexed]
    split
    · simp only [Res.map, Val.bounds]
      exact h1.append (readIndexed_part fs vs h (i + 1) _ (hp.keep h2) (Nat.le_trans hs h2.nodes) hd hv2)
    · simp only [Val.bounds, hv2, List.append_nil]; exact h1
theorem readFields_part {D : Nat → Prop} {s : Nat} (fs : Flds) (vs : List Val) (h : Handle) (H : Heap)
    (hp : Part D H) (hs : s ≤ H.nodes) (hd : ∀ n, h = some n → D n) (hv : Val.bounds vs = []) :
    InPart D s (Val.bounds (readFields fs vs h H).out) := by
  match fs, vs with
  | .nil, _ => simp only [readFields]; exact nil_of_inPart hv
  | .cons _ _ _, [] => simp only [readFields]; exact nil_of_inPart hv
  | .cons name t fs, v :: vs =>
    simp only [Val.bounds] at hv
    obtain ⟨hv1, hv2⟩ := nil_of_append hv
    have step : ∀ k : Handle, (∀ n, k = some n → D n) →
        InPart D s (Val.bounds (match (read t v k H).stop with
          | .ok => (readFields fs vs h (read t v k H).heap).map ((read t v k H).out :: ·)
          | e => ⟨e, (read t v k H).out :: vs, (read t v k H).heap⟩ : Res (List Val)).out) := by
      intro k hk
      have h1 := read_part (s := s) t v k H hp hs hk hv1
      have h2 := read_only (t := t) hp hk hv1
      split
      · simp only [Res.map, Val.bounds]
        exact h1.append (readFields_part fs vs h _ (hp.keep h2) (Nat.le_trans hs h2.nodes) hd hv2)
      · simp only [Val.bounds, hv2, List.append_nil]; exact h1
    simp only [readFields]
    split
    · simp only [Val.bounds]; exact nil_of_inPart hv
    · exact step none (fun n hn => by cases hn)
    · rename_i n hl
      refine step (some n) (fun m hm => ?_)
      cases hm
      unfold lookup at hl
      split at hl
      · rename_i es hg
        have hk := get_part hp hd
        rw [hg] at hk
        split at hl
        · rename_i n' hl'
          cases hl
          exact hk _ (lookup_mem hl')
        · cases hl
      · cases hl
      · cases hl
end

end Verif.YamlNode
