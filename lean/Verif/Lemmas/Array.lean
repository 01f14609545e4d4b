import Verif.Model.Array
import Verif.Spec.ArrayGrammar

namespace Verif
open Spec

theorem readQuoted_of_body {t d : Bytes} (h : QuotedBody t d) (acc rest : Bytes) :
    readQuoted (t ++ quote :: rest) false acc = some (acc ++ d, rest) := by
  induction h generalizing acc with
  | nil => simp [readQuoted, quote, backslash]
  | plain h1 h2 _ ih =>
    simp only [List.cons_append, readQuoted]
    rw [if_neg h2, if_neg h1, ih]; simp
  | esc _ ih =>
    simp only [List.cons_append, readQuoted]
    rw [if_pos trivial, ih]; simp

theorem body_of_readQuoted {cs acc e rest : Bytes} {esc : Bool}
    (h : readQuoted cs esc acc = some (e, rest)) :
    (esc = false → ∃ t d, QuotedBody t d ∧ cs = t ++ quote :: rest ∧ e = acc ++ d) ∧
    (esc = true → ∃ x t d, QuotedBody t d ∧ cs = x :: t ++ quote :: rest ∧ e = acc ++ x :: d) := by
  induction cs generalizing esc acc with
  | nil => simp [readQuoted] at h
  | cons c cs ih =>
    cases esc with
    | true =>
      simp only [readQuoted] at h
      obtain ⟨t, d, hb, h1, h2⟩ := (ih h).1 rfl
      refine ⟨by simp, fun _ => ⟨c, t, d, hb, by simp [h1], by simp [h2]⟩⟩
    | false =>
      simp only [readQuoted] at h
      refine ⟨fun _ => ?_, by simp⟩
      split at h
      · rename_i hc
        obtain ⟨x, t, d, hb, h1, h2⟩ := (ih h).2 rfl
        exact ⟨92 :: x :: t, x :: d, .esc hb, by simp [h1, hc, backslash], h2⟩
      · split at h
        · rename_i hc
          simp only [Option.some.injEq, Prod.mk.injEq] at h
          exact ⟨[], [], .nil, by simp [h.2, hc], by simp [h.1]⟩
        · rename_i h92 h34
          obtain ⟨t, d, hb, h1, h2⟩ := (ih h).1 rfl
          exact ⟨c :: t, c :: d, .plain h34 h92 hb, by simp [h1], by simp [h2]⟩

theorem readBare_of (f : Fmt) {t : Bytes} (ht : ∀ y ∈ t, y ≠ comma ∧ y ≠ f.cls) (acc : Bytes)
    {x : Byte} (hx : x = comma ∨ x = f.cls) (rest : Bytes) :
    readBare f (t ++ x :: rest) acc = some (acc ++ t, x :: rest) := by
  induction t generalizing acc with
  | nil => simp [readBare, hx]
  | cons c t ih =>
    have hc := ht c (by simp)
    simp only [List.cons_append, readBare]
    rw [if_neg (by simp [hc]), ih (fun y hy => ht y (by simp [hy]))]
    simp

theorem of_readBare {f : Fmt} {cs acc e rest : Bytes} (h : readBare f cs acc = some (e, rest)) :
    ∃ t x rest', cs = t ++ x :: rest' ∧ rest = x :: rest' ∧ (x = comma ∨ x = f.cls) ∧
      (∀ y ∈ t, y ≠ comma ∧ y ≠ f.cls) ∧ e = acc ++ t := by
  induction cs generalizing acc with
  | nil => simp [readBare] at h
  | cons c cs ih =>
    simp only [readBare] at h
    split at h
    · rename_i hc
      simp only [Option.some.injEq, Prod.mk.injEq] at h
      exact ⟨[], c, cs, rfl, h.2.symm, hc, by simp, by simp [h.1]⟩
    · rename_i hc
      obtain ⟨t, x, r, h1, h2, h3, h4, h5⟩ := ih h
      refine ⟨c :: t, x, r, by simp [h1], h2, h3, ?_, by simp [h5]⟩
      intro y hy
      rcases List.mem_cons.1 hy with rfl | hy
      · simpa [not_or] using hc
      · exact h4 y hy

/-! ### completeness -/

theorem elementLoop_of_elem (f : Fmt) {t : Bytes} {e : Option Bytes}
    (h : Elem f.opn f.cls t e) {x : Byte} (hx : x = comma ∨ x = f.cls) (rest : Bytes) (s : PState) :
    elementLoop f (t ++ x :: rest) s = .ok ({ s with elems := s.elems ++ [e] }, x :: rest) := by
  have hqo : (quote : Byte) ≠ f.opn := by cases f <;> decide
  cases h with
  | @quoted t d hb =>
    rw [show (34 :: (t ++ [34])) ++ x :: rest = (quote :: (t ++ quote :: (x :: rest))) by
      simp]
    unfold elementLoop
    rw [if_neg hqo, if_pos rfl, readQuoted_of_body hb]
    simp
  | @bare y t h1 h2 h3 h4 =>
    have : readBare f (y :: (t ++ x :: rest)) [] = some (y :: t, x :: rest) :=
      readBare_of f (t := y :: t) h3 [] hx rest
    rw [List.cons_append]; unfold elementLoop
    rw [if_neg h1, if_neg h2, this]
    simp [nullWord, h4]
  | null =>
    have h3 : ∀ y ∈ ([78, 85, 76, 76] : Bytes), y ≠ comma ∧ y ≠ f.cls := by
      cases f <;> decide
    have : readBare f (78 :: ([85, 76, 76] ++ x :: rest)) [] = some ([78, 85, 76, 76], x :: rest) :=
      readBare_of f h3 [] hx rest
    rw [show ([78, 85, 76, 76] : Bytes) ++ x :: rest = 78 :: ([85, 76, 76] ++ x :: rest) by simp]
    unfold elementLoop
    rw [if_neg (by cases f <;> decide), if_neg (by decide), this]
    simp [nullWord]

theorem bumpDim_one (k : Nat) (es : List (Option Bytes)) :
    bumpDim ⟨[k], 1, es⟩ = .ok ⟨[k + 1], 1, es⟩ := by
  simp [bumpDim, getIdx, setIdx]

theorem afterElement_comma (f : Fmt) (cs : Bytes) (k : Nat) (es : List (Option Bytes)) :
    afterElement f (comma :: cs) ⟨[k], 1, es⟩ =
      (elementLoop f cs ⟨[k + 1], 1, es⟩ >>= fun p => afterElement f p.2 p.1) := by
  rw [afterElement]
  simp only [true_and, Nat.zero_lt_one, if_true, bumpDim_one]
  split <;> rename_i h <;> simp [h]

theorem afterElement_cls (f : Fmt) (cs : Bytes) (k : Nat) (es : List (Option Bytes)) :
    afterElement f (f.cls :: cs) ⟨[k], 1, es⟩ = afterElement f cs ⟨[k + 1], 0, es⟩ := by
  rw [afterElement]
  simp only [bumpDim_one]
  rw [if_neg (by cases f <;> simp [Fmt.cls, comma])]
  simp

theorem afterElement_zero (f : Fmt) (cs : Bytes) (d : List Nat) (es : List (Option Bytes)) :
    afterElement f cs ⟨d, 0, es⟩ = if cs = [] then .ok ⟨d, 0, es⟩ else .err := by
  cases cs <;> simp [afterElement]

theorem run_of_elems (f : Fmt) {t : Bytes} {es : List (Option Bytes)}
    (h : Elems f.opn f.cls t es) (k : Nat) (acc : List (Option Bytes)) :
    (elementLoop f (t ++ [f.cls]) ⟨[k], 1, acc⟩ >>= fun p => afterElement f p.2 p.1) =
      .ok ⟨[k + es.length], 0, acc ++ es⟩ := by
  induction h generalizing k acc with
  | one he =>
    rw [elementLoop_of_elem f he (.inr rfl)]
    simp [afterElement_cls, afterElement_zero]
  | @more t e t' es he _ ih =>
    rw [List.append_assoc, List.cons_append, show (44 : Byte) = comma from rfl,
      elementLoop_of_elem f he (.inl rfl)]
    simp only [Res.ok_bind, afterElement_comma, ih]
    simp; omega

theorem openLoop_elem (f : Fmt) {x : Byte} (h1 : x ≠ f.opn) (h2 : x ≠ f.cls) (cs : Bytes) :
    openLoop f (f.opn :: x :: cs) 0 = .inr (1, x :: cs) := by
  simp [openLoop, h1, h2]

theorem elem_head (f : Fmt) {t : Bytes} {e : Option Bytes} (h : Elem f.opn f.cls t e) :
    ∃ x t', t = x :: t' ∧ x ≠ f.opn ∧ x ≠ f.cls := by
  cases h with
  | quoted => exact ⟨_, _, rfl, by cases f <;> decide, by cases f <;> decide⟩
  | @bare x t h1 h2 h3 => exact ⟨_, _, rfl, h1, (h3 x (by simp)).2⟩
  | null => exact ⟨_, _, rfl, by cases f <;> decide, by cases f <;> decide⟩

theorem elems_head (f : Fmt) {t : Bytes} {e : List (Option Bytes)} (h : Elems f.opn f.cls t e) :
    ∃ x t', t = x :: t' ∧ x ≠ f.opn ∧ x ≠ f.cls := by
  cases h with
  | one h => exact elem_head f h
  | more h _ =>
    obtain ⟨x, t', h1, h2⟩ := elem_head f h
    exact ⟨x, _, by rw [h1]; rfl, h2⟩

theorem elems_ne_nil {o c : Byte} {t : Bytes} {es : List (Option Bytes)} (h : Elems o c t es) :
    es ≠ [] := by
  cases h <;> simp

theorem openLoop_replicate (f : Fmt) (n k : Nat) (cs : Bytes) :
    openLoop f (List.replicate n f.opn ++ cs) k = openLoop f cs (n + k) := by
  induction n generalizing k with
  | zero => simp
  | succ n ih =>
    simp only [List.replicate_succ, List.cons_append, openLoop, if_true, ih]
    congr 1; omega

theorem closeLoop_replicate (f : Fmt) (n : Nat) :
    closeLoop f (List.replicate n f.cls) n = .ok 0 := by
  induction n with
  | zero => rfl
  | succ n ih => simp [List.replicate_succ, closeLoop, ih]

theorem opn_ne_cls (f : Fmt) : f.opn ≠ f.cls := by cases f <;> decide

theorem scan_complete (f : Fmt) {src : Bytes} {es : List (Option Bytes)}
    (h : LinearArray f.opn f.cls src es) : scanLinearArray f src = .ok es := by
  cases h with
  | @empty n hn =>
    obtain ⟨m, rfl⟩ : ∃ m, n = m + 1 := ⟨n - 1, by omega⟩
    have hO : openLoop f (List.replicate (m + 1) f.opn ++ List.replicate (m + 1) f.cls) 0
        = .inl (m + 1, List.replicate (m + 1) f.cls) := by
      rw [openLoop_replicate, List.replicate_succ, openLoop]
      simp [(opn_ne_cls f).symm]
    have hP : parseArray f (List.replicate (m + 1) f.opn ++ List.replicate (m + 1) f.cls)
        = .ok ([], []) := by
      rw [List.replicate_succ, List.cons_append, parseArray, ← List.cons_append,
        ← List.replicate_succ, hO]
      simp [closeLoop_replicate]
    simp [scanLinearArray, hP]
  | @list t es he =>
    obtain ⟨x, t', ht, h1, h2⟩ := elems_head f he
    have hO : openLoop f (f.opn :: (t ++ [f.cls])) 0 = .inr (1, t ++ [f.cls]) := by
      subst ht; exact openLoop_elem f h1 h2 _
    have hrun := run_of_elems f he 0 []
    have hP : parseArray f (f.opn :: (t ++ [f.cls])) = .ok ([es.length], es) := by
      obtain ⟨p, hp1, hp2⟩ := Res.bind_eq_ok.1 hrun
      have hne := elems_ne_nil he
      have hl : es.length ≠ 0 := by simpa using hne
      simp only [parseArray, hO]
      simp [hp1, hp2, closeLoop, checkDims, hl]
    simp [scanLinearArray, hP]

/-! ### soundness -/

theorem elementLoop_one (f : Fmt) {cs rest : Bytes} {k : Nat} {acc : List (Option Bytes)}
    {s : PState} (h : elementLoop f cs ⟨[k], 1, acc⟩ = .ok (s, rest)) :
    (s = ⟨[k], 1, acc⟩ ∧ (rest = [] ∨ ∃ r, rest = f.opn :: r)) ∨
    (∃ t e, Elem f.opn f.cls t e ∧ cs = t ++ rest ∧ s = ⟨[k], 1, acc ++ [e]⟩) := by
  cases cs with
  | nil => simp [elementLoop] at h; simp [h.1, h.2]
  | cons c cs =>
    unfold elementLoop at h
    split at h
    · rename_i hc
      simp at h
      exact .inl ⟨h.1.symm, .inr ⟨cs, by rw [← h.2, hc]⟩⟩
    · rename_i hc
      split at h
      · rename_i hq
        split at h
        · simp at h; exact .inl ⟨h.1.symm, .inl h.2⟩
        · rename_i e r hr
          simp at h
          obtain ⟨t, d, hb, h1, h2⟩ := (body_of_readQuoted hr).1 rfl
          refine .inr ⟨34 :: (t ++ [34]), some d, .quoted hb, ?_, ?_⟩
          · simp [h1, hq, quote, ← h.2]
          · rw [← h.1]; simp [h2]
      · rename_i hq
        split at h
        · simp at h; exact .inl ⟨h.1.symm, .inl h.2⟩
        · rename_i e r hr
          obtain ⟨t, x, r', h1, h2, h3, h4, h5⟩ := of_readBare hr
          split at h
          · simp at h
          · rename_i hne
            simp at h
            simp at h5
            subst h5
            cases e with
            | nil => exact absurd rfl hne
            | cons y t =>
              simp only [List.cons_append, List.cons.injEq] at h1
              obtain ⟨rfl, h1⟩ := h1
              refine .inr ⟨c :: t, _, ?_, by simp [h1, ← h.2, h2], by rw [← h.1]⟩
              by_cases hN : c :: t = nullWord
              · rw [if_pos hN, hN]; exact .null
              · rw [if_neg hN]; exact .bare hc hq h4 hN

theorem run_sound (f : Fmt) (n : Nat) : ∀ {cs : Bytes} {k : Nat} {acc : List (Option Bytes)}
    {s : PState}, cs.length ≤ n →
    (elementLoop f cs ⟨[k], 1, acc⟩ >>= fun p => afterElement f p.2 p.1) = .ok s → s.depth = 0 →
    ∃ t es, Elems f.opn f.cls t es ∧ cs = t ++ [f.cls] ∧ s = ⟨[k + es.length], 0, acc ++ es⟩ := by
  induction n with
  | zero =>
    intro cs k acc s hn h hd
    have : cs = [] := by simpa using hn
    subst this
    simp [elementLoop, afterElement] at h
    subst h; simp at hd
  | succ n ih =>
    intro cs k acc s hn h hd
    obtain ⟨⟨s1, rest⟩, h1, h2⟩ := Res.bind_eq_ok.1 h
    simp only at h2
    rcases elementLoop_one f h1 with ⟨rfl, rfl | ⟨r, rfl⟩⟩ | ⟨t, e, he, hcs, rfl⟩
    · simp [afterElement] at h2; subst h2; simp at hd
    · rw [afterElement] at h2
      rw [if_neg (by cases f <;> simp [Fmt.opn, comma]),
        if_neg (by simp [opn_ne_cls f])] at h2
      simp at h2
    · cases rest with
      | nil => simp [afterElement] at h2; subst h2; simp at hd
      | cons x rest =>
        by_cases hx : x = comma
        · subst hx
          rw [afterElement_comma] at h2
          have hlen : rest.length ≤ n := by
            rw [hcs] at hn; simp at hn; omega
          obtain ⟨t', es, he', hcs', hs⟩ := ih hlen h2 hd
          refine ⟨t ++ 44 :: t', e :: es, .more he he', ?_, ?_⟩
          · simp [hcs, hcs', comma]
          · rw [hs]; simp; omega
        · by_cases hx' : x = f.cls
          · subst hx'
            rw [afterElement_cls, afterElement_zero] at h2
            split at h2
            · rename_i hr
              simp at h2
              exact ⟨t, [e], .one he, by rw [hcs, hr], by rw [← h2]; simp⟩
            · simp at h2
          · rw [afterElement] at h2
            simp [hx, hx'] at h2

theorem openLoop_inl {f : Fmt} {cs rest : Bytes} {k d : Nat} (h : openLoop f cs k = .inl (d, rest)) :
    ∃ n r, cs = List.replicate n f.opn ++ rest ∧ d = n + k ∧ rest = f.cls :: r := by
  induction cs generalizing k with
  | nil => simp [openLoop] at h
  | cons c cs ih =>
    simp only [openLoop] at h
    split at h
    · rename_i hc
      obtain ⟨n, r, h1, h2, h3⟩ := ih h
      exact ⟨n + 1, r, by simp [List.replicate_succ, hc, h1], by omega, h3⟩
    · split at h
      · rename_i hc
        simp at h
        exact ⟨0, cs, by simp [h.2], by omega, by rw [← h.2, hc]⟩
      · simp at h

theorem openLoop_inr {f : Fmt} {cs rest : Bytes} {k d : Nat} (h : openLoop f cs k = .inr (d, rest)) :
    ∃ n, cs = List.replicate n f.opn ++ rest ∧ d = n + k ∧
      (rest = [] ∨ ∃ x r, rest = x :: r ∧ x ≠ f.opn ∧ x ≠ f.cls) := by
  induction cs generalizing k with
  | nil => simp [openLoop] at h; exact ⟨0, by simp [h.2], by omega, by simp [h.2]⟩
  | cons c cs ih =>
    simp only [openLoop] at h
    split at h
    · rename_i hc
      obtain ⟨n, h1, h2, h3⟩ := ih h
      exact ⟨n + 1, by simp [List.replicate_succ, hc, h1], by omega, h3⟩
    · split at h
      · simp at h
      · rename_i h1 h2
        simp at h
        exact ⟨0, by simp [h.2], by omega, .inr ⟨c, cs, h.2.symm, h1, h2⟩⟩

theorem closeLoop_ok {f : Fmt} {cs : Bytes} {d d' : Nat} (h : closeLoop f cs d = .ok d') :
    ∃ n, cs = List.replicate n f.cls ∧ d = n + d' := by
  induction cs generalizing d with
  | nil => simp [closeLoop] at h; exact ⟨0, by simp, by omega⟩
  | cons c cs ih =>
    simp only [closeLoop] at h
    split at h
    · rename_i hc
      obtain ⟨n, h1, h2⟩ := ih h
      exact ⟨n + 1, by simp [List.replicate_succ, hc.1, h1], by omega⟩
    · simp at h

/-- Elements never shrink `dims` nor change its length. -/
theorem bumpDim_dims {s s' : PState} (h : bumpDim s = .ok s') :
    s'.dims.length = s.dims.length ∧ s'.depth = s.depth := by
  obtain ⟨d, _, h⟩ := Res.bind_eq_ok.1 h
  obtain ⟨ds, h1, h⟩ := Res.bind_eq_ok.1 h
  simp only [setIdx] at h1
  split at h1 <;> simp at h1
  simp at h
  simp [← h, ← h1]

theorem elementLoop_dims {f : Fmt} {cs rest : Bytes} {s s' : PState}
    (h : elementLoop f cs s = .ok (s', rest)) : s'.dims.length = s.dims.length := by
  induction cs generalizing s with
  | nil => simp [elementLoop] at h; simp [h.1]
  | cons c cs ih =>
    unfold elementLoop at h
    split at h
    · split at h
      · simp at h; simp [h.1]
      · obtain ⟨d, h1, h2⟩ := Res.bind_eq_ok.1 h
        simp only [setIdx] at h1
        split at h1 <;> simp at h1
        rw [ih h2]; simp [← h1]
    · split at h
      · split at h <;> simp at h <;> simp [← h.1]
      · split at h
        · simp at h; simp [h.1]
        · split at h
          · simp at h
          · simp at h; simp [← h.1]

theorem afterElement_dims {f : Fmt} (n : Nat) : ∀ {cs : Bytes} {s s' : PState}, cs.length ≤ n →
    afterElement f cs s = .ok s' → s'.dims.length = s.dims.length := by
  induction n with
  | zero =>
    intro cs s s' hn h
    have : cs = [] := by simpa using hn
    subst this; simp [afterElement] at h; simp [h]
  | succ n ih =>
    intro cs s s' hn h
    cases cs with
    | nil => simp [afterElement] at h; simp [h]
    | cons c cs =>
      simp at hn
      rw [afterElement] at h
      split at h
      · split at h
        · rename_i hb
          split at h
          · rename_i he
            rw [ih (by have := elementLoop_length he; omega) h, elementLoop_dims he,
              (bumpDim_dims hb).1]
          · simp at h
          · simp at h
        · simp at h
        · simp at h
      · split at h
        · split at h
          · rename_i hb
            rw [ih hn h]; exact (bumpDim_dims hb).1
          · simp at h
          · simp at h
        · simp at h

theorem scan_sound (f : Fmt) {src : Bytes} {es : List (Option Bytes)}
    (h : scanLinearArray f src = .ok es) : LinearArray f.opn f.cls src es := by
  obtain ⟨⟨dims, elems⟩, hp, h⟩ := Res.bind_eq_ok.1 h
  simp only at h
  split at h
  · simp at h
  rename_i hd
  simp at h; subst h
  cases src with
  | nil => simp [parseArray] at hp
  | cons c src =>
    simp only [parseArray] at hp
    split at hp
    · simp at hp
    rename_i hc
    simp at hc
    split at hp
    · rename_i depth rest ho
      obtain ⟨n, r, h1, h2, h3⟩ := openLoop_inl ho
      obtain ⟨d', hcl, hp⟩ := Res.bind_eq_ok.1 hp
      split at hp
      · simp at hp
      rename_i hd'
      simp at hp
      obtain ⟨m, h4, h5⟩ := closeLoop_ok hcl
      rw [h1, h4, hp.2, show m = n by omega]
      refine .empty ?_
      rcases Nat.eq_zero_or_pos n with h0 | h0
      · rw [h0, h3] at h1
        simp at h1
        exact absurd (hc.symm.trans h1.1) (opn_ne_cls f)
      · exact h0
    · rename_i depth rest ho
      obtain ⟨n, h1, h2, h3⟩ := openLoop_inr ho
      obtain ⟨⟨s1, r1⟩, he, hp⟩ := Res.bind_eq_ok.1 hp
      simp only at hp
      obtain ⟨s2, ha, hp⟩ := Res.bind_eq_ok.1 hp
      obtain ⟨d', hcl, hp⟩ := Res.bind_eq_ok.1 hp
      simp [closeLoop] at hcl
      split at hp
      · simp at hp
      rename_i hd'
      obtain ⟨_, hck, hq⟩ := Res.bind_eq_ok.1 hp
      simp only [Res.ok.injEq, Prod.mk.injEq] at hq
      have hlen : dims.length = depth := by
        rw [← hq.1, afterElement_dims _ (Nat.le_refl _) ha, elementLoop_dims he]; simp
      have hn1 : n = 1 := by
        rcases Nat.eq_zero_or_pos n with h0 | h0
        · rw [h0] at h1
          rcases h3 with h3 | ⟨x, r, h3, h4, h5⟩
          · rw [h3] at h1; simp at h1
          · rw [h3] at h1; simp at h1
            exact absurd (h1.1.symm.trans hc) h4
        · omega
      subst hn1
      have hdep : depth = 1 := by omega
      subst hdep
      have hrun : (elementLoop f rest ⟨[0], 1, []⟩ >>= fun p => afterElement f p.2 p.1) = .ok s2 := by
        simp only [List.replicate] at he
        rw [he]; exact ha
      obtain ⟨t, es, hes, hcs, hs⟩ := run_sound f _ (Nat.le_refl _) hrun (by omega)
      rw [h1, hcs, ← hq.2, hs]
      simpa [List.replicate] using LinearArray.list hes

/-! ### absence of panics -/

/-- Counters of closed levels are positive. -/
def PState.Inv (s : PState) : Prop :=
  s.depth ≤ s.dims.length ∧ ∀ i d, s.depth ≤ i → s.dims[i]? = some d → 0 < d

theorem bumpDim_ok {s : PState} (h : s.Inv) (hd : 0 < s.depth) :
    ∃ s', bumpDim s = .ok s' ∧ s'.Inv ∧ PState.Inv { s' with depth := s'.depth - 1 } ∧
      s'.depth = s.depth := by
  have hlt : s.depth - 1 < s.dims.length := by have := h.1; omega
  refine ⟨{ s with dims := s.dims.set (s.depth - 1) (s.dims[s.depth - 1] + 1) }, ?_, ?_, ?_, rfl⟩
  · simp [bumpDim, getIdx, setIdx, hlt]
  · refine ⟨by simpa using h.1, fun i d hi hd' => ?_⟩
    simp only at hi hd'
    rw [List.getElem?_set_ne (by omega)] at hd'
    exact h.2 i d hi hd'
  · refine ⟨by have := h.1; simp; omega, fun i d hi hd' => ?_⟩
    simp only at hi hd'
    by_cases hi' : i = s.depth - 1
    · subst hi'
      rw [List.getElem?_set_self (by simpa using hlt)] at hd'
      simp at hd'; omega
    · rw [List.getElem?_set_ne (by omega)] at hd'
      exact h.2 i d (by omega) hd'

theorem elementLoop_inv {f : Fmt} {cs : Bytes} {s : PState} (h : s.Inv) :
    elementLoop f cs s ≠ .panic ∧
      ∀ s' rest, elementLoop f cs s = .ok (s', rest) → s'.Inv := by
  induction cs generalizing s with
  | nil => simp [elementLoop, h]
  | cons c cs ih =>
    unfold elementLoop
    split
    · split
      · simp [h]
      · rename_i hne
        have hlt : s.depth < s.dims.length := by have := h.1; omega
        have hI : PState.Inv ⟨s.dims.set s.depth 0, s.depth + 1, s.elems⟩ := by
          refine ⟨by simp; omega, fun i d hi hd' => ?_⟩
          simp only at hi hd'
          rw [List.getElem?_set_ne (by omega)] at hd'
          exact h.2 i d (by omega) hd'
        simpa [setIdx, hlt] using ih hI
    · split
      · split
        · simp [h]
        · refine ⟨by simp, fun s' r hh => ?_⟩
          simp at hh; rw [← hh.1]; exact h
      · split
        · simp [h]
        · split
          · simp
          · refine ⟨by simp, fun s' r hh => ?_⟩
            simp at hh; rw [← hh.1]; exact h

theorem afterElement_inv {f : Fmt} (n : Nat) : ∀ {cs : Bytes} {s : PState}, cs.length ≤ n → s.Inv →
    afterElement f cs s ≠ .panic ∧ ∀ s', afterElement f cs s = .ok s' → s'.Inv := by
  induction n with
  | zero =>
    intro cs s hn h
    have : cs = [] := by simpa using hn
    subst this; simp [afterElement, h]
  | succ n ih =>
    intro cs s hn h
    cases cs with
    | nil => simp [afterElement, h]
    | cons c cs =>
      simp at hn
      rw [afterElement]
      split
      · rename_i hc
        obtain ⟨s1, hb, hI, _⟩ := bumpDim_ok h hc.2
        rw [hb]
        simp only
        have he := elementLoop_inv (f := f) (cs := cs) hI
        split
        · rename_i s2 rest hel
          exact ih (by have := elementLoop_length hel; omega) (he.2 _ _ hel)
        · simp
        · rename_i hel; exact absurd hel he.1
      · split
        · rename_i hc
          obtain ⟨s1, hb, _, hI, _⟩ := bumpDim_ok h hc.2
          rw [hb]
          exact ih hn hI
        · simp

theorem closeLoop_no_panic (f : Fmt) (cs : Bytes) (d : Nat) : closeLoop f cs d ≠ .panic := by
  induction cs generalizing d with
  | nil => simp [closeLoop]
  | cons c cs ih => simp only [closeLoop]; split <;> simp [ih]

theorem checkDims_no_panic (n : Nat) (ds : List Nat) (b : Bool) (h : ∀ d ∈ ds, 0 < d) :
    checkDims n ds b ≠ .panic := by
  induction ds generalizing b with
  | nil => simp only [checkDims]; split <;> simp
  | cons d ds ih =>
    have hd := h d (by simp)
    simp only [checkDims]
    rw [if_neg (by omega)]
    exact ih _ (fun x hx => h x (by simp [hx]))

theorem parseArray_no_panic (f : Fmt) (src : Bytes) : parseArray f src ≠ .panic := by
  intro hp
  cases src with
  | nil => simp [parseArray] at hp
  | cons c src =>
    simp only [parseArray] at hp
    split at hp
    · simp at hp
    · split at hp
      · rename_i depth rest _
        cases hcl : closeLoop f rest depth with
        | ok d =>
          rw [hcl] at hp; simp only [Res.ok_bind] at hp
          split at hp <;> simp at hp
        | err => rw [hcl] at hp; simp at hp
        | panic => exact closeLoop_no_panic _ _ _ hcl
      · rename_i depth rest _
        have hI : PState.Inv ⟨List.replicate depth 0, depth, []⟩ := by
          refine ⟨by simp, fun i d hi hd' => ?_⟩
          simp only [List.getElem?_replicate] at hi hd'
          rw [if_neg (by omega)] at hd'; simp at hd'
        have he := elementLoop_inv (f := f) (cs := rest) hI
        cases hel : elementLoop f rest ⟨List.replicate depth 0, depth, []⟩ with
        | panic => exact he.1 hel
        | err => rw [hel] at hp; simp at hp
        | ok p =>
          obtain ⟨s1, r1⟩ := p
          rw [hel] at hp
          simp only [Res.ok_bind] at hp
          have ha := afterElement_inv (f := f) _ (Nat.le_refl r1.length) (he.2 _ _ hel)
          cases haf : afterElement f r1 s1 with
          | panic => exact ha.1 haf
          | err => rw [haf] at hp; simp at hp
          | ok s2 =>
            rw [haf] at hp
            simp only [Res.ok_bind, closeLoop] at hp
            split at hp
            · simp at hp
            · rename_i hdep
              have hI2 := ha.2 _ haf
              have hpos : ∀ d ∈ s2.dims, 0 < d := by
                intro d hd
                obtain ⟨i, hi⟩ := List.getElem?_of_mem hd
                exact hI2.2 i d (by omega) hi
              cases hck : checkDims s2.elems.length s2.dims false with
              | panic => exact checkDims_no_panic _ _ _ hpos hck
              | ok => rw [hck] at hp; simp at hp
              | err => rw [hck] at hp; simp at hp

end Verif
