import Verif.Space.Encode
import Verif.Space.DomainLemmas

/-! # Lemmas about the encoders -/

namespace Verif.Space

theorem find?_unique {α : Type*} {l : List α} {p : α → Bool} {a : α} (ha : a ∈ l) (hp : p a = true)
    (hu : ∀ b ∈ l, p b = true → b = a) : l.find? p = some a := by
  cases h : l.find? p with
  | none =>
    rw [List.find?_eq_none] at h
    exact absurd hp (h a ha)
  | some b =>
    have hb := List.mem_of_find?_eq_some h
    have hpb := List.find?_some h
    rw [hu b hb hpb]

theorem lookupDict_getElem {α : Type*} [DecidableEq α] {l : List α} (hn : l.Nodup) {i : ℕ}
    (hi : i < l.length) : lookupDict l l[i] = some i := by
  unfold lookupDict
  have : (l.zipIdx.reverse).find? (fun p => decide (p.1 = l[i])) = some (l[i], i) := by
    apply find?_unique
    · rw [List.mem_reverse, List.mem_zipIdx_iff_getElem?]
      simp [hi]
    · simp
    · rintro ⟨b, j⟩ hb hp
      rw [List.mem_reverse, List.mem_zipIdx_iff_getElem?] at hb
      simp only [decide_eq_true_eq] at hp
      simp only at hb
      obtain ⟨hj, hbj⟩ := List.getElem?_eq_some_iff.mp hb
      have : j = i := (hn.getElem_inj_iff (hi := hj) (hj := hi)).mp (by rw [hbj, hp])
      simp [hp, this]
  rw [this]
  rfl

theorem findIdx?_getElem {α : Type*} [DecidableEq α] {l : List α} (hn : l.Nodup) {i : ℕ}
    (hi : i < l.length) : l.findIdx? (fun d => decide (d = l[i])) = some i := by
  rw [List.findIdx?_eq_some_iff_getElem]
  refine ⟨hi, by simp, ?_⟩
  intro j hj
  simp only [decide_eq_true_eq]
  intro he
  have := (hn.getElem_inj_iff (hi := by omega) (hj := hi)).mp he
  omega

theorem catEncode_getElem {α : Type*} [DecidableEq α] (hashable : Bool) {l : List α}
    (hn : l.Nodup) {i : ℕ} (hi : i < l.length) : catEncode hashable l l[i] = some i := by
  unfold catEncode
  split_ifs
  · exact lookupDict_getElem hn hi
  · exact findIdx?_getElem hn hi

theorem catEncode_none {α : Type*} [DecidableEq α] (hashable : Bool) {l : List α} {c : α}
    (hc : c ∉ l) : catEncode hashable l c = none := by
  unfold catEncode lookupDict
  split_ifs
  · rw [Option.map_eq_none_iff, List.find?_eq_none]
    rintro ⟨b, j⟩ hb
    rw [List.mem_reverse, List.mem_zipIdx_iff_getElem?] at hb
    simp only [decide_eq_true_eq]
    rintro rfl
    exact hc (List.mem_of_getElem? hb)
  · rw [List.findIdx?_eq_none_iff]
    intro b hb
    simp only [decide_eq_false_iff_not]
    rintro rfl
    exact hc hb

theorem pyGet_nat {α : Type*} (l : List α) (i : ℕ) : pyGet l (i : ℤ) = l[i]? := by
  simp [pyGet]

theorem catDecode_nat {α : Type*} (l : List α) (i : ℕ) : catDecode l (i : ℝ) = l[i]? := by
  unfold catDecode
  rw [rnd_natCast, pyGet_nat]

/-! ## Dictionaries -/

namespace Dict

variable {β : Type*}

theorem get?_of_mem {d : Dict β} (hn : d.keys.Nodup) {k : String} {v : β} (h : (k, v) ∈ d) :
    d.get? k = some v := by
  unfold get?
  have : d.find? (fun p => decide (p.1 = k)) = some (k, v) := by
    apply find?_unique h (by simp)
    rintro ⟨k', v'⟩ hb hp
    simp only [decide_eq_true_eq] at hp
    subst hp
    have := List.inj_on_of_nodup_map hn hb h rfl
    exact this
  rw [this]; rfl

theorem get?_none {d : Dict β} {k : String} (h : k ∉ d.keys) : d.get? k = none := by
  unfold get?
  rw [Option.map_eq_none_iff, List.find?_eq_none]
  intro p hp
  simp only [decide_eq_true_eq]
  rintro rfl
  exact h (List.mem_map_of_mem hp)

theorem mem_of_get? {d : Dict β} {k : String} {v : β} (h : d.get? k = some v) : (k, v) ∈ d := by
  unfold get? at h
  rw [Option.map_eq_some_iff] at h
  obtain ⟨⟨k', v'⟩, hf, rfl⟩ := h
  have h1 := List.mem_of_find?_eq_some hf
  have h2 := List.find?_some hf
  simp only [decide_eq_true_eq] at h2
  subst h2
  exact h1

theorem sorted_perm (d : Dict β) : d.sorted.Perm d := List.mergeSort_perm _ _

theorem sorted_pairwise (d : Dict β) : d.sorted.Pairwise (fun a b => a.1 ≤ b.1) := by
  have := List.pairwise_mergeSort (le := fun a b : String × β => decide (a.1 ≤ b.1))
    (by intro a b c h1 h2; simp only [decide_eq_true_eq] at *; exact le_trans h1 h2)
    (by intro a b; simp only [Bool.or_eq_true, decide_eq_true_eq]; exact le_total _ _) d
  simpa [sorted] using this

theorem sorted_keys_nodup {d : Dict β} (hn : d.keys.Nodup) : d.sorted.keys.Nodup :=
  (((sorted_perm d).map Prod.fst).nodup_iff).mpr hn

/-- Sorting by name forgets the order in which the names were given. -/
theorem sorted_eq_of_perm {d e : Dict β} (hn : d.keys.Nodup) (h : d.Perm e) :
    d.sorted = e.sorted := by
  have hp : d.sorted.Perm e.sorted := (sorted_perm d).trans (h.trans (sorted_perm e).symm)
  apply hp.eq_of_pairwise (le := fun a b => a.1 ≤ b.1) _ (sorted_pairwise d) (sorted_pairwise e)
  rintro ⟨k, v⟩ ⟨k', v'⟩ ha hb h1 h2
  simp only at h1 h2
  have hk : k = k' := le_antisymm h1 h2
  subst hk
  have ha' : (k, v) ∈ d := (sorted_perm d).mem_iff.mp ha
  have hb' : (k, v') ∈ d := h.mem_iff.mpr ((sorted_perm e).mem_iff.mp hb)
  have e1 := get?_of_mem hn ha'
  have e2 := get?_of_mem hn hb'
  rw [e1] at e2
  simp only [Option.some.injEq] at e2
  rw [e2]

theorem update_disjoint (d e : Dict β) (hn : e.keys.Nodup) (hd : ∀ k ∈ e.keys, k ∉ d.keys) :
    d.update e = d ++ e := by
  unfold update
  induction e generalizing d with
  | nil => simp
  | cons p e ih =>
    have h1 : p.1 ∉ d.keys := hd p.1 (by simp [keys])
    have hn' := hn
    simp only [keys, List.map_cons, List.nodup_cons] at hn'
    simp only [List.foldl_cons]
    have hs : d.set p.1 p.2 = d ++ [p] := by
      unfold set
      rw [if_neg h1]
    rw [hs, ih (d ++ [p]) hn'.2]
    · simp
    · intro k hk hmem
      simp only [keys, List.map_append, List.map_cons, List.map_nil, List.mem_append,
        List.mem_singleton] at hmem
      rcases hmem with hmem | rfl
      · exact hd k (by simp only [keys, List.map_cons, List.mem_cons]; exact Or.inr hk) hmem
      · exact hn'.1 hk

end Dict

/-! ## Encoding and decoding rows -/

namespace Encoder

/-- Position of a transformer among the sorted names. -/
theorem indexOf_append {e : Encoder} (hn : e.transformers.keys.Nodup)
    {pre suf : Dict Transformer} {p : String × Transformer}
    (h : e.transformers = pre ++ p :: suf) : e.indexOf p.1 = pre.length := by
  unfold indexOf
  rw [h] at hn ⊢
  simp only [Dict.keys, List.map_append, List.map_cons] at hn ⊢
  rw [List.findIdx_append]
  have hnot : ¬ p.1 ∈ pre.map Prod.fst := by
    rw [List.nodup_append] at hn
    intro hm
    exact hn.2.2 _ hm p.1 (by simp) rfl
  have hlen : (pre.map Prod.fst).findIdx (fun k => decide (k = p.1)) = (pre.map Prod.fst).length := by
    rw [List.findIdx_eq_length]
    intro x hx
    simp only [decide_eq_false_iff_not]
    rintro rfl
    exact hnot hx
  rw [hlen]
  simp [List.findIdx_cons]

theorem forall₂_append_left {α β : Type*} {R : α → β → Prop} {a b : List α} {l : List β}
    (h : List.Forall₂ R (a ++ b) l) :
    ∃ l₁ l₂, List.Forall₂ R a l₁ ∧ List.Forall₂ R b l₂ ∧ l = l₁ ++ l₂ := by
  induction a generalizing l with
  | nil => exact ⟨[], l, List.Forall₂.nil, h, rfl⟩
  | cons x a ih =>
    cases h with
    | cons hx ht =>
      obtain ⟨l₁, l₂, h1, h2, rfl⟩ := ih ht
      exact ⟨_ :: l₁, l₂, List.Forall₂.cons hx h1, h2, rfl⟩

/-- What it means that `xs` are the encoded values of a configuration. -/
def RowOf (ts : Dict Transformer) (conf : Dict Val) (xs : List ℝ) : Prop :=
  List.Forall₂ (fun p x => ∃ v, conf.get? p.1 = some v ∧ p.2.encode v = some x) ts xs

theorem encodeRow_eq {e : Encoder} (hn : e.transformers.keys.Nodup) {conf : Dict Val}
    {xs init : List ℝ} (hx : RowOf e.transformers conf xs)
    (hi : init.length = e.transformers.length) : e.encodeRow conf init = some xs := by
  unfold encodeRow
  suffices H : ∀ (pre suf : Dict Transformer) (pxs sxs rest : List ℝ),
      e.transformers = pre ++ suf → pxs.length = pre.length → rest.length = suf.length →
      RowOf suf conf sxs →
      suf.foldlM (fun row p => do
        let v ← conf.get? p.1
        let x ← p.2.encode v
        return row.set (e.indexOf p.1) x) (pxs ++ rest) = some (pxs ++ sxs) by
    have := H [] e.transformers [] xs init (by simp) rfl hi hx
    simpa using this
  intro pre suf
  induction suf generalizing pre with
  | nil =>
    intro pxs sxs rest _ _ hr hrow
    cases hrow
    simp only [List.length_nil, List.length_eq_zero_iff] at hr
    subst hr
    simp
  | cons p suf ih =>
    intro pxs sxs rest he hp hr hrow
    cases hrow with
    | @cons _ x _ sxs' hx hrow =>
      obtain ⟨v, hv, hxv⟩ := hx
      cases rest with
      | nil => simp at hr
      | cons r rest =>
        have hidx := indexOf_append hn he
        simp only [List.foldlM_cons, hv, hxv, Option.bind_eq_bind, Option.bind_some,
          Option.pure_def, hidx]
        have hset : (pxs ++ r :: rest).set pre.length x = (pxs ++ [x]) ++ rest := by
          rw [← hp, List.set_append_right _ _ (le_refl _)]
          simp
        rw [hset]
        have := ih (pre ++ [p]) (pxs ++ [x]) sxs' rest (by simp [he]) (by simp [hp])
          (by simpa using hr) hrow
        simpa using this

theorem encode_eq {e : Encoder} (hn : e.transformers.keys.Nodup) {configs : List (Dict Val)}
    {rows init : List (List ℝ)}
    (hr : List.Forall₂ (RowOf e.transformers) configs rows)
    (hl : init.length = configs.length) (hi : ∀ r ∈ init, r.length = e.transformers.length) :
    e.encode configs init = some rows := by
  unfold encode
  induction hr generalizing init with
  | nil => simp
  | @cons c row cs rows hrow _ ih =>
    cases init with
    | nil => simp at hl
    | cons i is =>
      have h1 := encodeRow_eq hn hrow (hi i (by simp))
      have h2 := ih (by simpa using hl) (fun r hr => hi r (by simp [hr]))
      simp only [List.zip_cons_cons, List.mapM_cons, h1, h2, Option.bind_eq_bind,
        Option.bind_some, Option.pure_def]

/-- The transformer gives back the value it encoded. -/
def Inverts (t : Transformer) (v : Val) : Prop := ∃ x, t.encode v = some x ∧ t.decode x = some v

theorem decodeCol_eq {e : Encoder} (hn : e.transformers.keys.Nodup)
    {pre suf : Dict Transformer} {p : String × Transformer}
    (h : e.transformers = pre ++ p :: suf) {configs : List (Dict Val)} {rows : List (List ℝ)}
    (hr : List.Forall₂ (RowOf e.transformers) configs rows)
    (hinv : ∀ c ∈ configs, ∀ v, c.get? p.1 = some v → Inverts p.2 v) :
    ∃ col, e.decodeCol rows p.1 p.2 = some col ∧
      List.Forall₂ (fun c v => c.get? p.1 = some v) configs col := by
  unfold decodeCol
  rw [indexOf_append hn h]
  induction hr with
  | nil => exact ⟨[], by simp, List.Forall₂.nil⟩
  | @cons c row cs rows hrow _ ih =>
    obtain ⟨col, hcol, hF⟩ := ih (fun c hc => hinv c (by simp [hc]))
    unfold RowOf at hrow
    rw [h] at hrow
    obtain ⟨xs, ys, h1, h2, rfl⟩ := forall₂_append_left hrow
    obtain ⟨x, ys', ⟨v, hv, hxv⟩, _, rfl⟩ := List.forall₂_cons_left_iff.mp h2
    obtain ⟨x', hx', hdec⟩ := hinv c (by simp) v hv
    rw [hxv] at hx'
    simp only [Option.some.injEq] at hx'
    subst hx'
    have hlen : xs.length = pre.length := h1.length_eq.symm
    have hget : (xs ++ x :: ys')[pre.length]? = some x := by
      rw [← hlen]; simp
    refine ⟨v :: col, ?_, List.Forall₂.cons hv hF⟩
    simp only [List.mapM_cons, hget, Option.bind_some, hdec, hcol, Option.bind_eq_bind,
      Option.pure_def]

theorem decodeCols_eq {e : Encoder} (hn : e.transformers.keys.Nodup)
    {configs : List (Dict Val)} {rows : List (List ℝ)}
    (hr : List.Forall₂ (RowOf e.transformers) configs rows)
    (hinv : ∀ p ∈ e.transformers, ∀ c ∈ configs, ∀ v, c.get? p.1 = some v → Inverts p.2 v) :
    ∃ values : Dict (List Val), (e.transformers.mapM fun p => do
        let col ← e.decodeCol rows p.1 p.2
        return (p.1, col)) = some values ∧
      List.Forall₂ (fun p q => q.1 = p.1 ∧
        List.Forall₂ (fun c v => c.get? p.1 = some v) configs q.2) e.transformers values := by
  suffices H : ∀ pre suf : Dict Transformer, e.transformers = pre ++ suf →
      ∃ values : Dict (List Val), (suf.mapM fun p => do
        let col ← e.decodeCol rows p.1 p.2
        return (p.1, col)) = some values ∧
      List.Forall₂ (fun p q => q.1 = p.1 ∧
        List.Forall₂ (fun c v => c.get? p.1 = some v) configs q.2) suf values by
    exact H [] e.transformers (by simp)
  intro pre suf
  induction suf generalizing pre with
  | nil => intro _; exact ⟨[], by simp, List.Forall₂.nil⟩
  | cons p suf ih =>
    intro he
    obtain ⟨values, hv, hF⟩ := ih (pre ++ [p]) (by simp [he])
    obtain ⟨col, hc, hcF⟩ := decodeCol_eq hn he hr (hinv p (by rw [he]; simp))
    refine ⟨(p.1, col) :: values, ?_, List.Forall₂.cons ⟨rfl, hcF⟩ hF⟩
    rw [List.mapM_cons]
    rw [hv]
    simp [hc]

theorem foldl_min_const {γ : Type*} (l : List (String × List γ)) (n : ℕ)
    (h : ∀ p ∈ l, p.2.length = n) : l.foldl (fun m p => min m p.2.length) n = n := by
  induction l with
  | nil => rfl
  | cons p l ih =>
    simp only [List.foldl_cons]
    rw [h p (by simp), min_self]
    exact ih (fun q hq => h q (by simp [hq]))

theorem zipColumns_eq {values : Dict (List Val)} {n : ℕ} (hne : values ≠ [])
    (hl : ∀ p ∈ values, p.2.length = n) :
    zipColumns values = (List.range n).map fun i =>
      values.filterMap fun p => (p.2[i]?).map fun v => (p.1, v) := by
  cases values with
  | nil => exact absurd rfl hne
  | cons p rest =>
    unfold zipColumns
    simp only
    have h0 : p.2.length = n := hl p (by simp)
    rw [h0, foldl_min_const rest n (fun q hq => hl q (by simp [hq]))]

theorem row_get? {values : Dict (List Val)} {n i : ℕ} (hi : i < n)
    (hn : values.keys.Nodup) (hl : ∀ p ∈ values, p.2.length = n) (name : String) :
    Dict.get? (values.filterMap fun p => (p.2[i]?).map fun v => (p.1, v)) name =
      (values.get? name).bind fun col => col[i]? := by
  have hmap : (values.filterMap fun p => (p.2[i]?).map fun v => (p.1, v)).map Prod.fst =
      values.map Prod.fst := by
    rw [List.map_filterMap]
    have : ∀ p ∈ values, (Option.map Prod.fst ((p.2[i]?).map fun v => (p.1, v))) = some p.1 := by
      intro p hp
      have : p.2[i]? = some (p.2[i]'(by rw [hl p hp]; exact hi)) :=
        List.getElem?_eq_getElem _
      rw [this]; rfl
    rw [List.filterMap_congr this]
    simp
  have hn' : (Dict.keys (values.filterMap fun p => (p.2[i]?).map fun v => (p.1, v))).Nodup := by
    unfold Dict.keys
    rw [hmap]; exact hn
  by_cases hmem : name ∈ values.keys
  · obtain ⟨⟨k, col⟩, hp, rfl⟩ := List.mem_map.mp hmem
    rw [Dict.get?_of_mem hn hp]
    have hget : col[i]? = some (col[i]'(by have := hl _ hp; simp only at this; omega)) :=
      List.getElem?_eq_getElem _
    simp only [Option.bind_some, hget]
    apply Dict.get?_of_mem hn'
    rw [List.mem_filterMap]
    exact ⟨_, hp, by simp [hget]⟩
  · rw [Dict.get?_none hmem]
    simp only [Option.bind_none]
    apply Dict.get?_none
    unfold Dict.keys
    rw [hmap]
    exact hmem

end Encoder

end Verif.Space
