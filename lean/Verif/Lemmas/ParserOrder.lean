import Verif.Lemmas.ParserWalk

/-! # The order of the fields -/

namespace Verif.Parser

open Verif Verif.Addrs Verif.Spec.Parser

/-- The comparison of the code is the lexicographic order. -/
theorem less_iff (a b : List Nat) : less a b = true ↔ a < b := by
  induction a generalizing b with
  | nil => cases b <;> simp [less]
  | cons x xs ih =>
    cases b with
    | nil => simp [less]
    | cons y ys =>
      simp only [less, List.cons_lt_cons_iff]
      by_cases h : x = y
      · subst h
        simp [ih]
      · simp [h]

/-- Sorting with `less` is sorting lexicographically. -/
theorem IsSort.lex {srt : Sorter} (h : IsSort srt) (l : List (List Nat × SField)) :
    (srt l).Perm l ∧ (srt l).Pairwise fun a b => ¬ b.1 < a.1 :=
  ⟨(h l).1, (h l).2.imp fun {a b} hab => by rw [← less_iff, hab]; simp⟩

/-! ## Slices -/

/-- The slice holds `v`. -/
def Good (h : Heap) (s : Slice) (v : List Nat) : Prop := s.read h = v ∧ (s.len = 0 ∨ s.arr < h.next)

theorem Good.length {h : Heap} {s : Slice} {v : List Nat} (g : Good h s v) : s.len = v.length := by
  have := congrArg List.length g.1
  simpa [Slice.read] using this

/-- With no room left, `append` copies: nothing else changes. -/
theorem goAppend_full {h : Heap} {s : Slice} {v : List Nat} (x : Nat) (g : Good h s v) (hc : s.cap = s.len) :
    Good (goAppend h s x).1 (goAppend h s x).2 (v ++ [x]) ∧
    (∀ s' v', Good h s' v' → Good (goAppend h s x).1 s' v') ∧
    (s.len < 2 → (goAppend h s x).2.cap = (goAppend h s x).2.len) := by
  have hn : ¬ s.len < s.cap := by omega
  unfold goAppend
  rw [if_neg hn]
  refine ⟨⟨?_, .inr (Nat.lt_succ_self _)⟩, ?_, ?_⟩
  · simp only [Slice.read, List.range_succ, List.map_append, List.map_cons, List.map_nil, if_true,
      Nat.lt_irrefl, if_false]
    congr 1
    rw [← g.1, Slice.read]
    apply List.map_congr_left
    intro k hk
    simp [List.mem_range.1 hk]
  · rintro s' v' ⟨h1, h2⟩
    refine ⟨?_, ?_⟩
    · rw [← h1]
      unfold Slice.read
      apply List.map_congr_left
      intro k hk
      have hk := List.mem_range.1 hk
      have : s'.arr ≠ h.next := by omega
      simp [this]
    · rcases h2 with h2 | h2
      · exact .inl h2
      · exact .inr (Nat.lt_succ_of_lt h2)
  · intro hl
    simp only
    omega

/-! ## The walk keeps its indices while nothing is nested deeper than two levels -/

def FieldRel (h : Heap) (a : Slice × SField) (b : List Nat × SField) : Prop := Good h a.1 b.1 ∧ a.2 = b.2

def ItemRel (h : Heap) (a : QItem) (b : VItem) : Prop :=
  SameItem a b ∧ Good h a.idx b.ix ∧ a.idx.cap = a.idx.len

structure Sim (st : CS) (q : List VItem) (out : List (List Nat × SField)) : Prop where
  fields : List.Forall₂ (FieldRel st.heap) st.fields out
  queue : List.Forall₂ (ItemRel st.heap) st.queue q

theorem forall2_imp {α β : Type} {R S : α → β → Prop} {a : List α} {b : List β}
    (h : List.Forall₂ R a b) (hi : ∀ x y, R x y → S x y) : List.Forall₂ S a b := by
  induction h with
  | nil => exact .nil
  | cons h _ ih => exact .cons (hi _ _ h) ih

theorem namesLoop_sim (f : QItem) (ix : List Nat) (ty tag k) (st : CS) (ns : List (Str × Bool)) (q out)
    (hs : Sim st q out) (hf : Good st.heap f.idx ix) (hc : f.idx.cap = f.idx.len) :
    Sim (namesLoop f ty tag k st ns) q (out ++ nameFields ix f.prev ty tag k ns) ∧
    Good (namesLoop f ty tag k st ns).heap f.idx ix := by
  induction ns generalizing k st out with
  | nil => simpa [namesLoop, nameFields] using ⟨hs, hf⟩
  | cons p ns ih =>
    obtain ⟨h1, h2, _⟩ := goAppend_full k hf hc
    simp only [namesLoop, nameFields]
    have := ih (k + 1) { st with
        heap := (goAppend st.heap f.idx k).1
        fields := st.fields ++ [((goAppend st.heap f.idx k).2, ⟨p.1, ty, p.2, false, f.prev, tag⟩)] }
      (out ++ [(ix ++ [k], ⟨p.1, ty, p.2, false, f.prev, tag⟩)])
      ⟨forall2_append (forall2_imp hs.fields fun x y hxy => ⟨h2 _ _ hxy.1, hxy.2⟩)
          (.cons ⟨h1, rfl⟩ .nil),
        forall2_imp hs.queue fun x y hxy => ⟨hxy.1, h2 _ _ hxy.2.1, hxy.2.2⟩⟩
      (h2 _ _ hf)
    simpa [List.append_assoc] using this

theorem declLoop_sim (env : Env) (f : QItem) (ix : List Nat) (i : Nat) (st : CS) (ds : List Decl) (q out)
    (hs : Sim st q out) (hf : Good st.heap f.idx ix) (hc : f.idx.cap = f.idx.len)
    (hl : targets ds ≠ [] → ix.length < 2) :
    Sim (declLoop env f i st ds) (q ++ kdI env ix f.prev i ds) (out ++ lvI ix f.prev i ds) := by
  induction ds generalizing i st q out with
  | nil => simpa [declLoop, lvI, kdI] using hs
  | cons d ds ih =>
    simp only [declLoop]
    cases d with
    | named ns ty tag =>
      obtain ⟨h1, h2⟩ := namesLoop_sim f ix ty tag i st ns q out hs hf hc
      have := ih (i + 1) (declStep env f i st (.named ns ty tag)) q _ h1 h2
        (fun h => hl (by simpa [targets] using h))
      simpa [lvI, kdI, List.append_assoc] using this
    | embed nm e ty tag t =>
      cases t with
      | none =>
        have := ih (i + 1) (declStep env f i st (.embed nm e ty tag none)) q out hs hf
          (fun h => hl (by simpa [targets] using h))
        simpa [lvI, kdI] using this
      | some id =>
        have hlt : f.idx.len < 2 := by
          rw [hf.length]; exact hl (by simp [targets])
        obtain ⟨h1, h2, h3⟩ := goAppend_full i hf hc
        obtain ⟨g1, g2, g3⟩ := goAppend_full i (h2 _ _ hf) hc
        have hstep : Sim (declStep env f i st (.embed nm e ty tag (some id)))
            (q ++ [⟨ix ++ [i], ⟨String.ofList nm, decide (0 < ty.ptrs)⟩ :: f.prev, env id⟩])
            (out ++ [(ix ++ [i], ⟨nm, ty, e, true, f.prev, tag⟩)]) := by
          refine ⟨forall2_append (forall2_imp hs.fields fun x y hxy => ⟨g2 _ _ (h2 _ _ hxy.1), hxy.2⟩)
              (.cons ⟨g2 _ _ h1, rfl⟩ .nil), ?_⟩
          refine forall2_append (forall2_imp hs.queue fun x y hxy =>
            ⟨hxy.1, g2 _ _ (h2 _ _ hxy.2.1), hxy.2.2⟩) (.cons ?_ .nil)
          exact ⟨⟨rfl, rfl⟩, g1, g3 hlt⟩
        have := ih (i + 1) (declStep env f i st (.embed nm e ty tag (some id)))
          (q ++ [⟨ix ++ [i], ⟨String.ofList nm, decide (0 < ty.ptrs)⟩ :: f.prev, env id⟩])
          (out ++ [(ix ++ [i], ⟨nm, ty, e, true, f.prev, tag⟩)])
          hstep
          (g2 _ _ (h2 _ _ hf))
          (fun _ => hl (by simp [targets]))
        simpa [lvI, kdI, List.append_assoc] using this

/-- At most two levels of embedding, counted from the root. -/
def Shallow (env : Env) (k : VItem) : Prop := ∃ L, k.ix.length + L = 2 ∧ Levels env L k.t

theorem kdI_mem (env : Env) (ix anc i) (ds : List Decl) (k : VItem) (h : k ∈ kdI env ix anc i ds) :
    k.ix.length = ix.length + 1 ∧ ∃ id ∈ targets ds, k.t = env id := by
  induction ds generalizing i with
  | nil => cases h
  | cons d ds ih =>
    cases d with
    | named ns ty tag =>
      obtain ⟨h1, id, h2, h3⟩ := ih (i + 1) h
      exact ⟨h1, id, by simpa [targets] using h2, h3⟩
    | embed nm e ty tag t =>
      cases t with
      | none =>
        obtain ⟨h1, id, h2, h3⟩ := ih (i + 1) h
        exact ⟨h1, id, by simpa [targets] using h2, h3⟩
      | some x =>
        simp only [kdI, List.mem_cons] at h
        rcases h with rfl | h
        · exact ⟨by simp, x, by simp [targets], rfl⟩
        · obtain ⟨h1, id, h2, h3⟩ := ih (i + 1) h
          refine ⟨h1, id, ?_, h3⟩
          simp only [targets, List.filterMap_cons, List.mem_cons]
          exact .inr h2

theorem Shallow.kids {env : Env} {k k' : VItem} (h : Shallow env k) (hk : k' ∈ kdI env k.ix k.prev 0 k.t) :
    Shallow env k' := by
  obtain ⟨L, hL, hl⟩ := h
  obtain ⟨hlen, id, hid, ht⟩ := kdI_mem env _ _ _ _ _ hk
  cases L with
  | zero =>
    simp only [Levels] at hl
    rw [hl] at hid
    cases hid
  | succ L =>
    refine ⟨L, by omega, ?_⟩
    rw [ht]
    exact hl id hid

theorem bfs_sim (env : Env) (n : Nat) (st : CS) (last : Option Str) (q : List VItem)
    (out : List (List Nat × SField)) (hs : Sim st q out) (hq : ∀ k ∈ q, Shallow env k)
    (r : CS × Option Str) (h : bfs env n st last = some r) :
    ∃ res, vbfs env n q out = some res ∧ indexed r.1 = res := by
  induction n generalizing st last q out with
  | zero => simp [bfs] at h
  | succ n ih =>
    simp only [bfs] at h
    cases hst : st.queue with
    | nil =>
      rw [hst] at h
      simp only [Option.some.injEq] at h
      have hqn := hs.queue
      rw [hst] at hqn
      cases hqn
      refine ⟨out, rfl, ?_⟩
      rw [← h]
      unfold indexed
      have hf := hs.fields
      clear hs
      revert hf
      generalize st.fields = fs
      intro hf
      induction hf with
      | nil => rfl
      | cons hab _ ih => rw [List.map_cons, ih, hab.1.1, hab.2]
    | cons f qs =>
      rw [hst] at h
      simp only at h
      have hqn := hs.queue
      rw [hst] at hqn
      cases hqn with
      | @cons _ b _ q' hb hq' =>
        have hlt : targets f.t ≠ [] → b.ix.length < 2 := by
          intro hne
          obtain ⟨L, hL, hl⟩ := hq b List.mem_cons_self
          cases L with
          | zero => rw [hb.1.2] at hne; exact absurd hl hne
          | succ L => omega
        have hsim := declLoop_sim env f b.ix 0 { st with queue := qs } f.t q' out ⟨hs.fields, hq'⟩
          hb.2.1 hb.2.2 hlt
        simp only [vbfs]
        rw [hb.1.1, hb.1.2] at hsim
        rw [hb.1.2] at h
        refine ih _ _ _ _ hsim ?_ h
        intro k hk
        rcases List.mem_append.1 hk with hk | hk
        · exact hq k (List.mem_cons_of_mem _ hk)
        · exact (hq b List.mem_cons_self).kids hk

/-! ## Reading order is the order of the indices -/

theorem append_lt (ix : List Nat) {a b : List Nat} (h : a < b) : ix ++ a < ix ++ b := by
  induction ix with
  | nil => exact h
  | cons x xs ih => rw [List.cons_append, List.cons_append, List.cons_lt_cons_iff]; exact .inr ⟨rfl, ih⟩

theorem nameFields_sorted (ix anc ty tag k) (ns : List (Str × Bool)) :
    (nameFields ix anc ty tag k ns).Pairwise (fun a b => a.1 < b.1) ∧
    ∀ p ∈ nameFields ix anc ty tag k ns, ∃ j, k ≤ j ∧ j < k + ns.length ∧ p.1 = ix ++ [j] := by
  induction ns generalizing k with
  | nil => simp [nameFields]
  | cons p ns ih =>
    obtain ⟨h1, h2⟩ := ih (k + 1)
    refine ⟨List.Pairwise.cons ?_ h1, ?_⟩
    · intro b hb
      obtain ⟨j, hj, _, he⟩ := h2 b hb
      rw [he]
      exact append_lt ix (by rw [List.cons_lt_cons_iff]; exact .inl (by omega))
    · intro b hb
      rcases List.mem_cons.1 hb with rfl | hb
      · exact ⟨k, Nat.le_refl _, by simp, rfl⟩
      · obtain ⟨j, h3, h4, h5⟩ := h2 b hb
        exact ⟨j, by omega, by simp only [List.length_cons]; omega, h5⟩

theorem oneName_tail {d : Decl} {ds : List Decl} (h : OneName (d :: ds)) : OneName ds := by
  intro i ns ty tag hi hlt
  exact h (i + 1) ns ty tag (by simpa using hi) (by simp only [List.length_cons]; omega)

theorem FI.sorted {env : Env} {ix anc i ds out n} (h : FI env ix anc i ds out n) (h1 : OneName ds)
    (hr : ∀ id ∈ targets ds, ∀ j, Reach env id j → OneName (env j)) :
    out.Pairwise (fun a b => a.1 < b.1) ∧ ∀ p ∈ out, ∃ j r, i ≤ j ∧ p.1 = ix ++ j :: r := by
  induction h with
  | nil => simp
  | @named ix anc i ds out n ns ty tag hds ih =>
    obtain ⟨ha, hb⟩ := ih (oneName_tail h1) (fun id hid => hr id (by simpa [targets] using hid))
    obtain ⟨hc, hd⟩ := nameFields_sorted ix anc ty tag i ns
    refine ⟨?_, ?_⟩
    · rw [List.pairwise_append]
      refine ⟨hc, ha, ?_⟩
      intro a haa b hbb
      obtain ⟨j, hj1, hj2, hj3⟩ := hd a haa
      obtain ⟨j', r, hj', hb'⟩ := hb b hbb
      have hne : ds ≠ [] := by
        rintro rfl
        cases hds
        cases hbb
      have hlen : ns.length ≤ 1 := h1 0 ns ty tag rfl (by
        cases ds with
        | nil => exact absurd rfl hne
        | cons _ _ => simp)
      rw [hj3, hb']
      exact append_lt ix (by rw [List.cons_lt_cons_iff]; exact .inl (by omega))
    · intro p hp
      rcases List.mem_append.1 hp with hp | hp
      · obtain ⟨j, hj1, _, hj3⟩ := hd p hp
        exact ⟨j, [], hj1, hj3⟩
      · obtain ⟨j, r, hj, he⟩ := hb p hp
        exact ⟨j, r, by omega, he⟩
  | other nm e ty tag hds ih =>
    obtain ⟨ha, hb⟩ := ih (oneName_tail h1) (fun id hid => hr id (by simpa [targets] using hid))
    refine ⟨ha, fun p hp => ?_⟩
    obtain ⟨j, r, hj, he⟩ := hb p hp
    exact ⟨j, r, by omega, he⟩
  | @emb ix anc i ds out sub n m nm e ty tag id hs hds ihs ih =>
    have hid : id ∈ targets (.embed nm e ty tag (some id) :: ds) := by simp [targets]
    obtain ⟨ha, hb⟩ := ih (oneName_tail h1) (fun id' hid' => hr id' (by
      simp only [targets, List.filterMap_cons, List.mem_cons]; exact .inr hid'))
    obtain ⟨hc, hd⟩ := ihs (hr id hid id (.refl _)) (fun id' hid' j hj => hr id hid j (.step hid' hj))
    have hsub : ∀ p ∈ sub, ∃ r, r ≠ [] ∧ p.1 = ix ++ i :: r := by
      intro p hp
      obtain ⟨j, r, _, he⟩ := hd p hp
      exact ⟨j :: r, by simp, by rw [he]; simp⟩
    refine ⟨?_, ?_⟩
    · rw [List.cons_append]
      refine List.Pairwise.cons ?_ (List.pairwise_append.2 ⟨hc, ha, ?_⟩)
      · intro b hbb
        rcases List.mem_append.1 hbb with hbb | hbb
        · obtain ⟨r, hr0, he⟩ := hsub b hbb
          rw [he]
          apply append_lt
          rw [List.cons_lt_cons_iff]
          refine .inr ⟨rfl, ?_⟩
          cases r with
          | nil => exact absurd rfl hr0
          | cons _ _ => simp
        · obtain ⟨j, r, hj, he⟩ := hb b hbb
          rw [he]
          exact append_lt ix (by rw [List.cons_lt_cons_iff]; exact .inl (by omega))
      · intro a haa b hbb
        obtain ⟨r, _, he⟩ := hsub a haa
        obtain ⟨j, r', hj, he'⟩ := hb b hbb
        rw [he, he']
        exact append_lt ix (by rw [List.cons_lt_cons_iff]; exact .inl (by omega))
    · intro p hp
      rw [List.cons_append] at hp
      rcases List.mem_cons.1 hp with rfl | hp
      · exact ⟨i, [], Nat.le_refl _, rfl⟩
      · rcases List.mem_append.1 hp with hp | hp
        · obtain ⟨r, _, he⟩ := hsub p hp
          exact ⟨i, r, Nat.le_refl _, he⟩
        · obtain ⟨j, r, hj, he⟩ := hb p hp
          exact ⟨j, r, by omega, he⟩

/-- Two lists of the same fields, one sorted strictly, the other in a way `sort.Slice` allows. -/
theorem sorted_unique {l₁ l₂ : List (List Nat × SField)} (hp : l₁.Perm l₂)
    (h₁ : l₁.Pairwise fun a b => ¬ b.1 < a.1) (h₂ : l₂.Pairwise fun a b => a.1 < b.1) : l₁ = l₂ := by
  refine List.Perm.eq_of_pairwise (le := fun a b => ¬ b.1 < a.1) ?_ h₁ ?_ hp
  · intro a b ha hb hab hba
    have hb' : b ∈ l₂ := hb
    have ha' : a ∈ l₂ := hp.subset ha
    have heq : a.1 = b.1 := List.le_antisymm (List.not_lt.1 hab) (List.not_lt.1 hba)
    by_contra hne
    obtain ⟨i, hi, rfl⟩ := List.getElem_of_mem ha'
    obtain ⟨j, hj, rfl⟩ := List.getElem_of_mem hb'
    rcases Nat.lt_trichotomy i j with hij | hij | hij
    · have := List.pairwise_iff_getElem.1 h₂ i j hi hj hij
      rw [heq] at this
      exact List.lt_irrefl _ this
    · subst hij; exact hne rfl
    · have := List.pairwise_iff_getElem.1 h₂ j i hj hi hij
      rw [heq] at this
      exact List.lt_irrefl _ this
  · exact h₂.imp fun hab hba => List.lt_asymm hab hba

/-- Shallow structs declaring one name at a time: whatever sorting does, it yields reading order. -/
theorem sorted_fields (env : Env) (s : Cache) (srt : Sorter) (hsrt : IsSort srt) (out : List Leaf)
    (h : Fields env [] (env s.t) out) (hl : Levels env 2 (env s.t))
    (h1 : ∀ j, Reach env s.t j → OneName (env j))
    (n : Nat) (r : CS × Option Str) (hr : bfs env n (start env s) none = some r) :
    (srt (indexed r.1)).map (·.2) = structLeaves out := by
  obtain ⟨outI, m, hFI, he⟩ := fields_toFI h [] 0
  have hsim : Sim (start env s) [rootItem env s] [] :=
    ⟨.nil, .cons ⟨⟨rfl, rfl⟩, ⟨rfl, .inl rfl⟩, rfl⟩ .nil⟩
  have hsh : ∀ k ∈ [rootItem env s], Shallow env k := by
    intro k hk
    rw [List.mem_singleton.1 hk]
    exact ⟨2, rfl, hl⟩
  have hbig := bfs_mono_le env n (max n (m + 2)) (Nat.le_max_left _ _) _ _ r hr
  obtain ⟨res, hres, hidx⟩ := bfs_sim env _ _ _ _ _ hsim hsh r hbig
  obtain ⟨res', hres', hp⟩ := vbfs_spec env (max n (m + 2)) [rootItem env s] [] [(outI, m)]
    (.cons hFI .nil) (by simp)
  rw [hres] at hres'
  cases hres'
  have hsorted := (hFI.sorted (h1 s.t (.refl _)) (fun id hid j hj => h1 j (.step hid hj))).1
  obtain ⟨hsp, hso⟩ := IsSort.lex hsrt (indexed r.1)
  have : srt (indexed r.1) = outI := by
    apply sorted_unique _ hso hsorted
    rw [hidx] at hsp ⊢
    exact hsp.trans (by simpa using hp)
  rw [this, he]

/-! ## Misplaced fields -/

theorem vbfs_subset (env : Env) (n : Nat) (q : List VItem) (out res : List (List Nat × SField))
    (h : vbfs env n q out = some res) : ∀ p ∈ out, p ∈ res := by
  induction n generalizing q out with
  | zero => simp [vbfs] at h
  | succ n ih =>
    cases q with
    | nil => simp only [vbfs, Option.some.injEq] at h; subst h; exact fun _ h => h
    | cons f q =>
      simp only [vbfs] at h
      exact fun p hp => ih _ _ h p (List.mem_append_left _ hp)

theorem lvI_append (ix anc i) (a b : List Decl) :
    lvI ix anc i (a ++ b) = lvI ix anc i a ++ lvI ix anc (i + a.length) b := by
  induction a generalizing i with
  | nil => simp [lvI]
  | cons d a ih =>
    have e : i + 1 + a.length = i + (a.length + 1) := by omega
    cases d with
    | named ns ty tag => simp [lvI, ih, e]
    | embed nm ex ty tag t => cases t <;> simp [lvI, ih, e]

/-- In a sorted list the smaller of two members comes first. -/
theorem before_of_lt {l : List (List Nat × SField)} (h : l.Pairwise fun a b => ¬ b.1 < a.1)
    {p q : List Nat × SField} (hp : p ∈ l) (hq : q ∈ l) (hlt : p.1 < q.1) : [p, q].Sublist l := by
  induction l with
  | nil => cases hp
  | cons x l ih =>
    rw [List.pairwise_cons] at h
    have hne : p ≠ q := by rintro rfl; exact List.lt_irrefl _ hlt
    rcases List.mem_cons.1 hp with rfl | hp'
    · rcases List.mem_cons.1 hq with rfl | hq'
      · exact absurd rfl hne
      · exact List.Sublist.cons_cons _ (List.singleton_sublist.2 hq')
    · rcases List.mem_cons.1 hq with rfl | hq'
      · exact absurd hlt (h.1 p hp')
      · exact List.Sublist.cons _ (ih h.2 hp' hq')

/-- The fields of the struct itself keep their indices while nothing is nested too deep. -/
theorem root_indexed (env : Env) (s : Cache) (hl : Levels env 2 (env s.t)) (n : Nat)
    (r : CS × Option Str) (hr : bfs env n (start env s) none = some r) :
    ∀ p ∈ lvI [] [] 0 (env s.t), p ∈ indexed r.1 := by
  have hsim : Sim (start env s) [rootItem env s] [] :=
    ⟨.nil, .cons ⟨⟨rfl, rfl⟩, ⟨rfl, .inl rfl⟩, rfl⟩ .nil⟩
  have hsh : ∀ k ∈ [rootItem env s], Shallow env k := by
    intro k hk
    rw [List.mem_singleton.1 hk]
    exact ⟨2, rfl, hl⟩
  obtain ⟨res, hres, hidx⟩ := bfs_sim env _ _ _ _ _ hsim hsh r hr
  rw [hidx]
  cases n with
  | zero => simp [vbfs] at hres
  | succ n =>
    simp only [vbfs, rootItem] at hres
    intro p hp
    exact vbfs_subset env _ _ _ _ hres p (by simpa using hp)

/-- Several names in one declaration, followed by another declaration: the next declaration's first
field is sorted before the third name. -/
theorem grouped_before (env : Env) (s : Cache) (srt : Sorter) (hsrt : IsSort srt)
    (hl : Levels env 2 (env s.t)) (n : Nat)
    (r : CS × Option Str) (hr : bfs env n (start env s) none = some r)
    (pre post : List Decl) (a b c : Str × Bool) (ns ns' : List (Str × Bool)) (ty ty' : FType) (tag tag' : Str)
    (d : Str × Bool)
    (hd : env s.t = pre ++ .named (a :: b :: c :: ns) ty tag :: .named (d :: ns') ty' tag' :: post) :
    [(⟨d.1, ty', d.2, false, [], tag'⟩ : SField), ⟨c.1, ty, c.2, false, [], tag⟩].Sublist
      ((srt (indexed r.1)).map (·.2)) := by
  have hm := root_indexed env s hl n r hr
  rw [hd, lvI_append] at hm
  obtain ⟨hsp, hso⟩ := IsSort.lex hsrt (indexed r.1)
  have h1 : ([pre.length + 1], (⟨d.1, ty', d.2, false, [], tag'⟩ : SField)) ∈ srt (indexed r.1) :=
    hsp.mem_iff.2 (hm _ (by simp [lvI, nameFields]))
  have h2 : ([pre.length + 2], (⟨c.1, ty, c.2, false, [], tag⟩ : SField)) ∈ srt (indexed r.1) :=
    hsp.mem_iff.2 (hm _ (by simp [lvI, nameFields]))
  exact (before_of_lt hso h1 h2 (by simp [List.cons_lt_cons_iff])).map (·.2)

end Verif.Parser
