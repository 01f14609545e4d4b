import Verif.Spec.Tags
import Verif.Props.ParserCases

/-!
# C114: the options of tags

Every option of the documentation has the effect that is said there, in upper case and lower case.

False: only four options have an effect, as they are written in lower case.  `size`, `binary`, `encode` and `decode` have none.
-/

namespace Verif.Props

open Verif Verif.Addrs Verif.Parser Verif.Spec.Parser Verif.Spec.Tags

/-! ## The walk -/

private structure SameField (f g : SField) : Prop where
  name : f.name = g.name
  ty : f.ty = g.ty
  exported : f.exported = g.exported
  embedded : f.embedded = g.embedded
  parent : f.parent = g.parent
  tag : SameTag f.tag g.tag

private structure SameItem (f g : QItem) : Prop where
  idx : f.idx = g.idx
  prev : f.prev = g.prev
  doc : f.doc = g.doc
  t : List.Forall₂ SameDecl f.t g.t

private structure SameState (a b : CS) : Prop where
  heap : a.heap = b.heap
  fields : List.Forall₂ (fun x y => x.1 = y.1 ∧ SameField x.2 y.2) a.fields b.fields
  queue : List.Forall₂ SameItem a.queue b.queue

private theorem same_names {f g : QItem} (hf : SameItem f g) {a b : Str} (ht : SameTag a b) (ty : FType) (ns : List (Str × Bool)) :
    ∀ (k : Nat) {x y : CS}, SameState x y → SameState (namesLoop f ty a k x ns) (namesLoop g ty b k y ns) := by
  induction ns with
  | nil => intro k x y h; exact h
  | cons p ns ih =>
    intro k x y h
    obtain ⟨n, e⟩ := p
    unfold namesLoop
    refine ih _ ⟨?_, ?_, h.queue⟩
    · show (goAppend x.heap f.idx k).1 = (goAppend y.heap g.idx k).1
      rw [h.heap, hf.idx]
    · exact forall2_append h.fields (.cons ⟨by rw [h.heap, hf.idx], rfl, rfl, rfl, rfl, hf.prev, ht⟩ .nil)

private theorem same_loop {env env' : Env} (he : SameEnv env env') {f g : QItem} (hf : SameItem f g) {ds ds' : List Decl}
    (hd : List.Forall₂ SameDecl ds ds') : ∀ (i : Nat) {x y : CS}, SameState x y → SameState (declLoop env f i x ds) (declLoop env' g i y ds') := by
  induction hd with
  | nil => intro i x y h; exact h
  | cons h1 _ ih =>
    intro i x y h
    unfold declLoop
    refine ih _ ?_
    cases h1 with
    | named ht => exact same_names hf ht _ _ _ h
    | @embed n e ty a b target ht =>
      cases target with
      | none => exact h
      | some id =>
        refine ⟨?_, ?_, ?_⟩
        · show (goAppend (goAppend x.heap f.idx i).1 f.idx i).1 = (goAppend (goAppend y.heap g.idx i).1 g.idx i).1
          rw [h.heap, hf.idx]
        · exact forall2_append h.fields (.cons ⟨by rw [h.heap, hf.idx], rfl, rfl, rfl, rfl, hf.prev, ht⟩ .nil)
        · refine forall2_append h.queue (.cons ⟨?_, ?_, rfl, he id⟩ .nil)
          · show (goAppend (goAppend x.heap f.idx i).1 f.idx i).2 = (goAppend (goAppend y.heap g.idx i).1 g.idx i).2
            rw [h.heap, hf.idx]
          · show _ :: f.prev = _ :: g.prev
            rw [hf.prev]
            rfl

private theorem same_bfs {env env' : Env} (he : SameEnv env env') (n : Nat) : ∀ {x y : CS} (last : Option Str), SameState x y →
    (bfs env n x last = none ∧ bfs env' n y last = none) ∨
      ∃ a b d, bfs env n x last = some (a, d) ∧ bfs env' n y last = some (b, d) ∧ SameState a b := by
  induction n with
  | zero => intro x y last h; exact .inl ⟨rfl, rfl⟩
  | succ n ih =>
    intro x y last h
    unfold bfs
    have hq := h.queue
    revert hq
    generalize hx : x.queue = qx
    generalize hy : y.queue = qy
    intro hq
    cases hq with
    | nil => exact .inr ⟨x, y, last, rfl, rfl, h⟩
    | @cons f g q q' hf hq =>
      simp only [hf.doc]
      exact ih _ (same_loop he hf hf.t _ ⟨h.heap, h.fields, hq⟩)

/-! ## Columns -/

private theorem same_opts {a b : Str} (h : SameTag a b) {ks : List Str} (hk : ∀ k ∈ ks, k ∈ known) :
    hasOpts (parseTag (opts a)) ks = hasOpts (parseTag (opts b)) ks := by
  rw [Bool.eq_iff_iff, hasOpts_iff, hasOpts_iff]
  constructor
  · rintro ⟨k, h1, h2⟩
    exact ⟨k, h1, (hasOpt_iff _ _).1 ((h.2 k (hk k h1)).1 ((hasOpt_iff _ _).2 h2))⟩
  · rintro ⟨k, h1, h2⟩
    exact ⟨k, h1, (hasOpt_iff _ _).1 ((h.2 k (hk k h1)).2 ((hasOpt_iff _ _).2 h2))⟩

private theorem same_step (cfg : Config) {f g : SField} (h : SameField f g) (st : LS) : fieldStep cfg f st = fieldStep cfg g st := by
  obtain ⟨n, ty, e, m, p, t⟩ := f
  obtain ⟨n', ty', e', m', p', t'⟩ := g
  obtain ⟨h1, h2, h3, h4, h5, h6⟩ := h
  simp only at h1 h2 h3 h4 h5 h6
  subst h1 h2 h3 h4 h5
  rw [fieldStep_eq, fieldStep_eq]
  have hn : colName cfg ⟨n, ty, e, m, p, t⟩ = colName cfg ⟨n, ty, e, m, p, t'⟩ := by simp only [colName, h6.1]
  have hadd (x : Str) : addColumn ⟨n, ty, e, m, p, t⟩ x (opts t) st = addColumn ⟨n, ty, e, m, p, t'⟩ x (opts t') st := by
    unfold addColumn
    simp only [same_opts h6 (ks := [optReadonly]) (by decide), same_opts h6 (ks := [optAutoIncrement]) (by decide),
      same_opts h6 (ks := [optAutoIncrement, optPK, optPKAlias]) (by decide)]
    rfl
  have e1 : okField ⟨n, ty, e, m, p, t⟩ = okField ⟨n, ty, e, m, p, t'⟩ := by simp only [okField, h6.1]
  have e2 : isCol ⟨n, ty, e, m, p, t⟩ = isCol ⟨n, ty, e, m, p, t'⟩ := by simp only [isCol, h6.1]
  have e3 (x : Str) : nextName cfg ⟨n, ty, e, m, p, t⟩ x = nextName cfg ⟨n, ty, e, m, p, t'⟩ x := by
    simp only [nextName, hn, h6.1]
  by_cases ho : okField ⟨n, ty, e, m, p, t'⟩
  · rw [if_pos ho, if_pos (e1 ▸ ho), e2, e3, hn]
    simp only [hadd]
  · rw [if_neg ho, if_neg (e1 ▸ ho)]

private theorem same_fields (cfg : Config) {fs gs : List SField} (h : List.Forall₂ SameField fs gs) : ∀ st,
    fieldLoop cfg fs st = fieldLoop cfg gs st := by
  induction h with
  | nil => intro st; rfl
  | cons h _ ih =>
    intro st
    unfold fieldLoop
    rw [same_step cfg h]
    simp only [ih]

/-! ## The property -/

/-- C114: only the name and the options `auto_increment`, `pk`, `primary_key` and `readonly` of tags have an effect: packages that differ in
nothing else have the same tables, or are rejected in the same way. -/
theorem C114_other_options_never (cfg : Config) {srt : Sorter} (hb : Blind srt) {env env' : Env} (he : SameEnv env env') (n : Nat)
    (ss : List Cache) : parse cfg srt env n ss = parse cfg srt env' n ss := by
  have one (s : Cache) : parseStruct cfg srt env n s = parseStruct cfg srt env' n s := by
    unfold parseStruct
    rcases same_bfs he n none (x := start env s) (y := start env' s) ⟨rfl, .nil, .cons ⟨rfl, rfl, rfl, he s.t⟩ .nil⟩ with
      ⟨h1, h2⟩ | ⟨a, b, d, h1, h2, h3⟩
    · rw [h1, h2]
    · rw [h1, h2]
      simp only [Option.map_some]
      congr 1
      unfold finish
      have hi : List.Forall₂ (fun x y => x.1 = y.1 ∧ SameField x.2 y.2) (indexed a) (indexed b) := by
        unfold indexed
        rw [List.forall₂_map_left_iff, List.forall₂_map_right_iff]
        exact h3.fields.imp fun x y h => ⟨by rw [h.1, h3.heap], h.2⟩
      have hs : List.Forall₂ SameField ((srt (indexed a)).map (·.2)) ((srt (indexed b)).map (·.2)) := by
        rw [List.forall₂_map_left_iff, List.forall₂_map_right_iff]
        exact (hb SameField _ _ hi).imp fun _ _ h => h.2
      rw [funext (same_fields cfg hs)]
  induction ss with
  | nil => rfl
  | cons s ss ih => unfold parse; rw [one s, ih]

private theorem split_append (a e : Str) (he : ',' ∉ e) : split ',' (a ++ ',' :: e) = split ',' a ++ [e] := by
  induction a with
  | nil =>
    have : split ',' e = [e] := by
      induction e with
      | nil => rfl
      | cons c e ih =>
        have hc : ¬ c = ',' := fun h => he (by simp [h])
        simp only [split, if_neg hc, ih fun h => he (List.mem_cons_of_mem _ h)]
    simp [split, this]
  | cons c a ih =>
    simp only [List.cons_append, split, ih]
    by_cases hc : c = ','
    · simp [hc]
    · simp only [if_neg hc]
      cases hs : split ',' a with
      | nil => exact absurd hs (split_ne_nil _ _)
      | cons w ws => rfl

/-- C114: an option more in a tag says nothing, unless it is one of the four. -/
theorem C114_option_more {t e : Str} (he : ',' ∉ e) (hk : ∀ o ∈ known, ¬ OptOf e o) : SameTag t (t ++ ',' :: e) := by
  constructor
  · unfold tagHead
    congr 1
    induction t with
    | nil => simp
    | cons c t ih => simp only [List.cons_append, List.takeWhile_cons, ih]
  · intro o ho
    unfold HasOpt
    simp only [entry_iff, split_append t e he]
    have : (split ',' t ++ [e]).tail = (split ',' t).tail ++ [e] := by
      cases hs : split ',' t with
      | nil => exact absurd hs (split_ne_nil _ _)
      | cons w ws => rfl
    rw [this]
    simp only [List.mem_append, List.mem_singleton]
    constructor
    · rintro ⟨x, h1, h2⟩
      exact ⟨x, .inl h1, h2⟩
    · rintro ⟨x, h1 | rfl, h2⟩
      · exact ⟨x, h1, h2⟩
      · exact absurd h2 (hk o ho)

private theorem rtrim_append {o : Str} (v : Str) (ho : ∀ c ∈ o, isSpace c = false) : rtrim (o ++ v) = o ++ rtrim v := by
  induction o with
  | nil => rfl
  | cons c o ih =>
    have hc := ho c List.mem_cons_self
    simp only [List.cons_append, rtrim, hc, Bool.false_and, Bool.false_eq_true, if_false, ih fun d hd => ho d (List.mem_cons_of_mem _ hd)]

/-- An option with a value, or without one, carries no other option. -/
theorem opt_only {o v k : Str} (ho : ∀ c ∈ o, isSpace c = false ∧ c ≠ ':') (hne : o ≠ []) (hv : v = [] ∨ ∃ w, v = ':' :: w)
    (h : OptOf (o ++ v) k) : k = o := by
  have h1 := (mem_parseTag [o ++ v] k).2 ⟨_, by simp, h⟩
  have ht : trimSpace (o ++ v) = o ++ rtrim v := by
    rw [← trim_eq, ← rtrim_append v fun c hc => (ho c hc).1]
    cases o with
    | nil => exact absurd rfl hne
    | cons c o => simp [trim, (ho c List.mem_cons_self).1]
  have hw : (o ++ rtrim v).takeWhile (· ≠ ':') = o := by
    rw [List.takeWhile_append_of_pos fun c hc => by simpa using (ho c hc).2]
    rcases hv with rfl | ⟨w, rfl⟩
    · simp [rtrim]
    · have : isSpace ':' = false := by decide
      simp [rtrim, this]
  simp only [parseTag, ht] at h1
  rw [if_neg (by simp [hne])] at h1
  rw [hw] at h1
  exact List.mem_singleton.1 h1

/-- C114: the options `size`, `binary`, `encode` and `decode` say nothing, with any value. -/
theorem C114_documented_never {t o v : Str} (ho : o ∈ documented) (hv : v = [] ∨ ∃ w, v = ':' :: w) (hc : ',' ∉ v) :
    SameTag t (t ++ ',' :: (o ++ v)) := by
  have h1 : ∀ o ∈ documented, (∀ c ∈ o, isSpace c = false ∧ c ≠ ':') ∧ o ≠ [] ∧ ',' ∉ o ∧ o ∉ known := by decide
  obtain ⟨a1, a2, a3, a4⟩ := h1 o ho
  refine C114_option_more (fun h => (List.mem_append.1 h).elim a3 hc) fun k hk h => a4 ?_
  rw [← opt_only a1 a2 hv h]
  exact hk

/-- C114: options are not recognised in any case: of all ways to write one of the four, only that in lower case says something. -/
theorem C114_case_never {t o k : Str} (hk : k ∈ known) (ho : o.map Char.toLower = k) (hne : o ≠ k) : SameTag t (t ++ ',' :: o) := by
  have key (c : Char) : (isSpace c.toLower = false ∧ c.toLower ≠ ':' ∧ c.toLower ≠ ',') → isSpace c = false ∧ c ≠ ':' ∧ c ≠ ',' := by
    rintro ⟨h1, h2, h3⟩
    refine ⟨?_, fun h => h2 (by rw [h]; decide), fun h => h3 (by rw [h]; decide)⟩
    by_cases hu : c.val ≥ 'A'.val ∧ c.val ≤ 'Z'.val
    · have u1 : 65 ≤ c.toNat := hu.1
      have u2 : c.toNat ≤ 90 := hu.2
      have : ∀ n, n < 91 → 65 ≤ n → isSpace (Char.ofNat n) = false := by decide
      have h := this c.toNat (by omega) u1
      rwa [Char.ofNat_toNat] at h
    · have : c.toLower = c := by
        unfold Char.toLower
        rw [dif_neg hu]
      rwa [this] at h1
  have hl : ∀ k ∈ known, (∀ c ∈ k, isSpace c = false ∧ c ≠ ':' ∧ c ≠ ',') ∧ k ≠ [] ∧ k.map Char.toLower = k := by decide
  obtain ⟨b1, b2, -⟩ := hl k hk
  have hc (c : Char) (h : c ∈ o) : isSpace c = false ∧ c ≠ ':' ∧ c ≠ ',' := key c (b1 _ (by rw [← ho]; exact List.mem_map_of_mem h))
  refine C114_option_more (fun h => (hc _ h).2.2 rfl) fun k' hk' h => hne ?_
  have e := opt_only (o := o) (v := []) (fun c h => ⟨(hc c h).1, (hc c h).2.1⟩) (fun h => b2 (by rw [← ho, h]; rfl)) (.inl rfl)
    (by rwa [List.append_nil])
  rw [← ho, ← e]
  exact (hl k' hk').2.2.symm

/-! ## Examples -/

theorem isort_blind : Blind isort := by
  intro R l l' h
  unfold isort
  induction h with
  | nil => exact .nil
  | @cons a b l l' hab _ ih =>
    simp only [List.insertionSort_cons]
    revert ih
    generalize List.insertionSort notAfter l = m
    generalize List.insertionSort notAfter l' = m'
    intro ih
    induction ih with
    | nil => exact .cons hab .nil
    | @cons c d m m' hcd hm ih =>
      have e : notAfter a c ↔ notAfter b d := by unfold notAfter; rw [hab.1, hcd.1]
      simp only [List.orderedInsert_cons]
      by_cases hn : notAfter a c
      · rw [if_pos hn, if_pos (e.1 hn)]
        exact .cons hab (.cons hcd hm)
      · rw [if_neg hn, if_neg (fun h => hn (e.2 h))]
        exact .cons hcd ih

/-- The struct of `ParserCases` with sizes, and a key in upper case. -/
def sizedEnv : Env
  | 0 => [.named [(lit "ID", true)] {} (lit "id,auto_increment"),
          .embed (lit "Base") true { ptrs := 1 } [] (some 1),
          .named [(lit "Name", true)] {} (lit "name, readonly,size:10"),
          .named [(lit "secret", false), (lit "Skip", true)] {} (lit "-")]
  | 1 => [.named [(lit "Code", true)] {} (lit ",pk,binary"), .named [(lit "Note", true)] { ptrs := 1 } (lit ",PK")]
  | _ => []

theorem sized_same : SameEnv userEnv sizedEnv := by
  have r (t : Str) : SameTag t t := ⟨rfl, fun _ _ => Iff.rfl⟩
  intro id
  match id with
  | 0 =>
    have h := C114_documented_never (t := lit "name, readonly") (o := lit "size") (v := lit ":10") (by decide) (.inr ⟨lit "10", rfl⟩) (by decide)
    exact .cons (.named (r _)) (.cons (.embed (r _)) (.cons (.named h) (.cons (.named (r _)) .nil)))
  | 1 =>
    have h := C114_documented_never (t := lit ",pk") (o := lit "binary") (v := []) (by decide) (.inl rfl) (by decide)
    have h' := C114_case_never (t := []) (o := lit "PK") (k := lit "pk") (by decide) (by decide) (by decide)
    exact .cons (.named h) (.cons (.named h') .nil)
  | _ + 2 => exact .nil

example : parse ⟨id⟩ isort sizedEnv 3 [user] = some (.ok [userTable]) := by
  rw [← C114_other_options_never ⟨id⟩ isort_blind sized_same 3 [user]]
  unfold parse
  rw [user_parsed]
  rfl

/-- The options that are known do make a difference. -/
example : ¬ SameTag (lit "") (lit ",pk") := fun h => by
  have := (h.2 (lit "pk") (by decide)).2 ((hasOpt_iff _ _).2 (by decide))
  exact absurd ((hasOpt_iff _ _).1 this) (by decide)

end Verif.Props
