import Verif.Lemmas.Regex
import Verif.Spec.Source

/-!
# Paths and patterns
-/

namespace Verif.Source

open Spec (Name path rel Goes PlainChar)

theorem parts_ne_nil (s : Text) : parts s ≠ [] := by
  cases s with
  | nil => simp [parts]
  | cons c s =>
    unfold parts
    split
    · simp
    · split <;> simp

theorem parts_slash (s : Text) : parts ('/' :: s) = [] :: parts s := by simp [parts]

theorem parts_append (a b : Text) : parts (a ++ '/' :: b) = parts a ++ parts b := by
  induction a with
  | nil => exact parts_slash b
  | cons c a ih =>
    rw [List.cons_append]
    by_cases hc : c = '/'
    · subst hc; rw [parts_slash, parts_slash, ih]; rfl
    · rw [parts, parts, if_neg hc, if_neg hc, ih]
      cases h : parts a with
      | nil => exact absurd h (parts_ne_nil a)
      | cons p ps => rfl

theorem parts_name {n : Text} (h : '/' ∉ n) : parts n = [n] := by
  induction n with
  | nil => rfl
  | cons c n ih =>
    rw [parts, if_neg (fun e => h (by rw [e]; exact List.mem_cons_self ..)), ih fun hm => h (List.mem_cons_of_mem _ hm)]

theorem parts_path {ns : List Text} (h : ∀ n ∈ ns, '/' ∉ n) : parts (path ns) = [] :: ns := by
  induction ns with
  | nil => rfl
  | cons n ns ih =>
    have hn := h n (List.mem_cons_self ..)
    have ih := ih fun m hm => h m (List.mem_cons_of_mem _ hm)
    show parts ('/' :: (n ++ path ns)) = _
    rw [parts_slash]
    cases ns with
    | nil => rw [show path [] = [] from rfl, List.append_nil, parts_name hn]
    | cons m ms =>
      show _ :: parts (n ++ '/' :: (m ++ path ms)) = _
      have e : parts (path (m :: ms)) = [] :: parts (m ++ path ms) := parts_slash _
      rw [ih, List.cons.injEq] at e
      rw [parts_append, ← e.2, parts_name hn]; rfl

theorem parts_rel {ps : List Text} (hne : ps ≠ []) (h : ∀ p ∈ ps, '/' ∉ p) : parts (rel ps) = ps := by
  induction ps with
  | nil => exact absurd rfl hne
  | cons n ns ih =>
    have hn := h n (List.mem_cons_self ..)
    cases ns with
    | nil => exact parts_name hn
    | cons m ms =>
      show parts (n ++ '/' :: rel (m :: ms)) = _
      rw [parts_append, ih (by simp) fun p hp => h p (List.mem_cons_of_mem _ hp), parts_name hn]; rfl

theorem parts_no_slash (s : Text) : ∀ p ∈ parts s, '/' ∉ p := by
  induction s with
  | nil => simp [parts]
  | cons c s ih =>
    by_cases hc : c = '/'
    · subst hc
      rw [parts_slash]
      intro p hp
      rcases List.mem_cons.1 hp with rfl | hp
      · simp
      · exact ih p hp
    · rw [parts, if_neg hc]
      cases h : parts s with
      | nil => exact absurd h (parts_ne_nil s)
      | cons p ps =>
        rw [h] at ih
        intro q hq
        rcases List.mem_cons.1 hq with rfl | hq
        · intro hm
          rcases List.mem_cons.1 hm with e | hm
          · exact hc e.symm
          · exact ih p (List.mem_cons_self ..) hm
        · exact ih q (List.mem_cons_of_mem _ hq)

theorem path_append (a b : List Text) : path (a ++ b) = path a ++ path b := by
  induction a with
  | nil => rfl
  | cons n a ih => show '/' :: (n ++ path (a ++ b)) = '/' :: (n ++ path a) ++ path b; rw [ih]; simp

theorem path_snoc (a : List Text) (n : Text) : path (a ++ [n]) = path a ++ '/' :: n := by
  rw [path_append]; show _ ++ '/' :: (n ++ []) = _; rw [List.append_nil]

theorem unparts_eq (ns : List Text) : unparts ns = path ns := by
  induction ns with
  | nil => rfl
  | cons n ns ih => show ('/' :: n) ++ unparts ns = _; rw [ih]; rfl

theorem path_ne {ns : List Text} (h : ns ≠ []) : path ns ≠ [] := by
  cases ns with
  | nil => exact absurd rfl h
  | cons n ns => simp [path]

/-! ## `Clean` -/

theorem goes_fold {ns ps r : List Text} (h : Goes ns ps r) : ps.foldl cleanStep ns.reverse = r.reverse := by
  induction h with
  | done => rfl
  | @stay ns p ps r hp _ ih =>
    rw [List.foldl_cons, cleanStep, if_pos hp, ih]
  | @up ns ps r _ ih =>
    rw [List.foldl_cons, cleanStep, if_neg (by simp), if_pos rfl]
    rw [← ih]
    congr 1
    exact List.tail_reverse
  | @down ns p ps r hp _ ih =>
    obtain ⟨h1, _, h3, h4⟩ := hp
    rw [List.foldl_cons, cleanStep, if_neg (by simp [h1, h3]), if_neg h4, ← ih]
    congr 1
    simp

theorem goes_total (ns ps : List Text) (h : ∀ p ∈ ps, '/' ∉ p) : ∃ r, Goes ns ps r := by
  induction ps generalizing ns with
  | nil => exact ⟨ns, .done⟩
  | cons p ps ih =>
    have h' : ∀ q ∈ ps, '/' ∉ q := fun q hq => h q (List.mem_cons_of_mem _ hq)
    by_cases h1 : p = [] ∨ p = ['.']
    · obtain ⟨r, hr⟩ := ih ns h'; exact ⟨r, .stay h1 hr⟩
    by_cases h2 : p = ['.', '.']
    · subst h2; obtain ⟨r, hr⟩ := ih ns.dropLast h'; exact ⟨r, .up hr⟩
    obtain ⟨r, hr⟩ := ih (ns ++ [p]) h'
    exact ⟨r, .down ⟨fun e => h1 (.inl e), h p (List.mem_cons_self ..), fun e => h1 (.inr e), h2⟩ hr⟩

theorem goes_names {ns ps r : List Text} (h : Goes ns ps r) (hn : ∀ n ∈ ns, Name n) : ∀ n ∈ r, Name n := by
  induction h with
  | done => exact hn
  | stay _ _ ih => exact ih hn
  | up _ ih => exact ih fun n hm => hn n (List.dropLast_subset _ hm)
  | down hp _ ih =>
    refine ih fun n hm => ?_
    rcases List.mem_append.1 hm with h | h
    · exact hn n h
    · rw [List.mem_singleton.1 h]; exact hp

theorem goes_append {ns ps qs r r' : List Text} (h : Goes ns ps r) (h' : Goes r qs r') : Goes ns (ps ++ qs) r' := by
  induction h with
  | done => exact h'
  | stay hp _ ih => exact .stay hp (ih h')
  | up _ ih => exact .up (ih h')
  | down hp _ ih => exact .down hp (ih h')

theorem goes_down {ns ms : List Text} (h : ∀ m ∈ ms, Name m) : Goes ns ms (ns ++ ms) := by
  induction ms generalizing ns with
  | nil => rw [List.append_nil]; exact .done
  | cons m ms ih =>
    refine .down (h m (List.mem_cons_self ..)) ?_
    have := ih (ns := ns ++ [m]) fun n hn => h n (List.mem_cons_of_mem _ hn)
    rwa [List.append_assoc, List.singleton_append] at this

theorem goes_functional {ns ps r r' : List Text} (h : Goes ns ps r) (h' : Goes ns ps r') : r = r' := by
  have e := goes_fold h
  rw [goes_fold h'] at e
  exact (List.reverse_inj.1 e).symm

theorem clean_goes {t : Text} {r : List Text} (h : Goes [] (parts t) r) (hr : r ≠ []) : clean t = path r := by
  unfold clean
  have e := goes_fold h
  rw [List.reverse_nil] at e
  rw [e]
  cases hrr : r.reverse with
  | nil => exact absurd (List.reverse_eq_nil_iff.1 hrr) hr
  | cons a b =>
    show unparts (a :: b).reverse = _
    rw [← hrr, List.reverse_reverse, unparts_eq]

theorem goes_path {ns : List Text} (h : ∀ n ∈ ns, Name n) : Goes [] (parts (path ns)) ns := by
  rw [parts_path fun n hn => (h n hn).2.1]
  exact .stay (.inl rfl) (goes_down h)

theorem clean_path {ns : List Text} (h : ∀ n ∈ ns, Name n) (hne : ns ≠ []) : clean (path ns) = path ns :=
  clean_goes (goes_path h) hne

theorem join_path {ns : List Text} (h : ∀ n ∈ ns, Name n) (hne : ns ≠ []) : join (path ns) [] = path ns := by
  unfold join
  rw [if_neg fun e => path_ne hne e.1]
  refine clean_goes ?_ hne
  rw [parts_append]
  exact goes_append (goes_path h) (.stay (.inl rfl) .done)

theorem join_goes {pwd : List Text} {s : Text} {r : List Text} (hp : ∀ n ∈ pwd, Name n) (hs : s ≠ []) (h : Goes pwd (parts s) r) (hr : r ≠ []) :
    join (path pwd) s = path r := by
  unfold join
  rw [if_neg fun e => hs e.2]
  refine clean_goes ?_ hr
  rw [parts_append]
  exact goes_append (goes_path hp) h

end Verif.Source
