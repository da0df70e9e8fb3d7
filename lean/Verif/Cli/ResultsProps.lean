import Verif.Cli.Lemmas
import Verif.Status.Props

/-!
# C97: `neps results` lists the incumbents
-/

namespace Neps.Cli

open Neps.Ids

/-- Sorting with any numbering that `int` reads from the ids. -/
theorem results_numbered (num : Trial → Int) (earlier : Trial → Trial → Prop)
    (trials : List (String × Trial)) (hid : Status.ById trials) (hl : AllHaveLoss trials)
    (hnum : ∀ p ∈ trials, pyInt p.2.id.toList = some (num p.2))
    (hinj : ∀ p ∈ trials, ∀ q ∈ trials, num p.2 = num q.2 → p.2.id = q.2.id)
    (hearlier : ∀ p ∈ trials, ∀ q ∈ trials, earlier p.2 q.2 ↔ num p.2 < num q.2) :
    ∃ shown, results trials = .ok shown ∧ AreIncumbents earlier trials shown := by
  have hkey : keyed (trials.map Prod.snd) = .ok ((trials.map Prod.snd).map (fun t => (num t, t))) :=
    keyed_ok num _ (fun t ht => by
      obtain ⟨p, hp, rfl⟩ := List.mem_map.1 ht
      exact hnum p hp)
  have hnd : ((trials.map Prod.snd).map num).Nodup := by
    rw [List.map_map]
    refine (List.nodup_map_iff_inj_on (List.Nodup.of_map _ hid.1)).2 ?_
    intro p hp q hq he
    have h1 := hinj p hp q hq he
    rw [hid.2 p hp, hid.2 q hq] at h1
    exact List.inj_on_of_nodup_map hid.1 hp hq h1
  obtain ⟨hperm, hsort⟩ := sorted_ids num _ hnd
  obtain ⟨res, hres, hsub, hiff⟩ := incumbents_spec num _ .pinf (by simp)
    (fun t ht r hr => by
      obtain ⟨p, hp, rfl⟩ := List.mem_map.1 (hperm.mem_iff.1 ht)
      exact hl p hp r hr) hsort
  have hmem : ∀ t, t ∈ ((sortKeyed ((trials.map Prod.snd).map (fun t => (num t, t)))).map Prod.snd) ↔
      ∃ p ∈ trials, p.2 = t := by
    intro t; rw [hperm.mem_iff, List.mem_map]
  have hrec : ∀ t, t ∈ res ↔ (∃ p ∈ trials, p.2 = t) ∧ Record earlier trials t := by
    intro t
    constructor
    · intro h
      have ht := hsub.subset h
      obtain ⟨x, hx, hlt, hall⟩ := (hiff t ht).1 h
      obtain ⟨p, hp, rfl⟩ := (hmem t).1 ht
      refine ⟨⟨p, hp, rfl⟩, x, hx, (lt_pinf_iff.1 hlt).1, (lt_pinf_iff.1 hlt).2, ?_⟩
      intro q hq he y hy
      exact hall q.2 ((hmem _).2 ⟨q, hq, rfl⟩) ((hearlier q hq p hp).1 he) y hy
    · rintro ⟨⟨p, hp, rfl⟩, x, hx, h1, h2, hall⟩
      refine (hiff p.2 ((hmem _).2 ⟨p, hp, rfl⟩)).2 ⟨x, hx, lt_pinf_iff.2 ⟨h1, h2⟩, ?_⟩
      intro s hs hn y hy
      obtain ⟨q, hq, rfl⟩ := (hmem s).1 hs
      exact hall q hq ((hearlier q hq p hp).2 hn) y hy
  -- every comparable loss is at least that of some record that is not later
  have hbelow : ∀ (n : ℕ), ∀ q ∈ trials, ∀ y, lossIn q.2 = some y → y ≠ .nan → y ≠ .pinf →
      ((trials.map Prod.snd).filter (fun s => num s < num q.2)).length = n →
      ∃ t ∈ res, num t ≤ num q.2 ∧ ∃ x, lossIn t = some x ∧ PyFloat.le x y = true := by
    intro n
    induction n using Nat.strong_induction_on with
    | _ n ih =>
      intro q hq y hy h1 h2 hlen
      by_cases hr : Record earlier trials q.2
      · exact ⟨q.2, (hrec _).2 ⟨⟨q, hq, rfl⟩, hr⟩, le_rfl, y, hy, le_refl' h1⟩
      · have : ∃ p ∈ trials, num p.2 < num q.2 ∧ ∃ z, lossIn p.2 = some z ∧ z ≠ .nan ∧
            PyFloat.lt y z ≠ true := by
          by_contra hcon
          push Not at hcon
          refine hr ⟨y, hy, h1, h2, ?_⟩
          intro p hp he z hz
          by_cases hzn : z = .nan
          · exact Or.inl hzn
          · exact Or.inr (hcon p hp ((hearlier p hp q hq).1 he) z hz hzn)
        obtain ⟨p, hp, hpn, z, hz, hzn, hnlt⟩ := this
        have hle : PyFloat.le z y = true := (lt_or_ge' h1 hzn).resolve_left hnlt
        have hzp : z ≠ .pinf := by
          rintro rfl; exact h2 (pinf_le hle)
        have hsub' : ((trials.map Prod.snd).filter (fun s => num s < num p.2)).Sublist
            ((trials.map Prod.snd).filter (fun s => num s < num q.2)) := by
          refine List.monotone_filter_right _ ?_
          intro s hs
          simp only [decide_eq_true_eq] at hs ⊢
          exact hs.trans hpn
        have hlt : ((trials.map Prod.snd).filter (fun s => num s < num p.2)).length < n := by
          rw [← hlen]
          refine lt_of_le_of_ne hsub'.length_le ?_
          intro he
          have hEq := hsub'.eq_of_length he
          have hm : p.2 ∈ ((trials.map Prod.snd).filter (fun s => num s < num q.2)) := by
            simp only [List.mem_filter, List.mem_map, decide_eq_true_eq]
            exact ⟨⟨p, hp, rfl⟩, hpn⟩
          rw [← hEq] at hm
          simp at hm
        obtain ⟨t, ht, htn, x, hx, hxz⟩ := ih _ hlt p hp z hz hzn hzp rfl
        exact ⟨t, ht, htn.trans hpn.le, x, hx, le_trans' hxz hle⟩
  refine ⟨res.reverse, by simp only [results, hkey, hres], ?_, ?_, ?_, ?_⟩
  · intro t; rw [List.mem_reverse]; exact hrec t
  · rw [List.pairwise_reverse]
    have := hsort.sublist hsub
    refine this.imp_of_mem (fun {a b} ha hb h => ?_)
    obtain ⟨p, hp, rfl⟩ := ((hrec a).1 ha).1
    obtain ⟨q, hq, rfl⟩ := ((hrec b).1 hb).1
    exact (hearlier p hp q hq).2 h
  · intro t ht
    rw [List.head?_reverse] at ht
    have htm : t ∈ res := List.mem_of_getLast? ht
    obtain ⟨⟨p, hp, rfl⟩, x, hx, h1, h2, hall⟩ := (hrec t).1 htm
    refine ⟨x, hx, h1, h2, ?_⟩
    intro q hq y hy
    by_cases hyn : y = .nan
    · exact Or.inl hyn
    by_cases hyp : y = .pinf
    · subst hyp; exact Or.inr (Or.inl (lt_pinf_iff.2 ⟨h1, h2⟩))
    obtain ⟨t', ht', htn, x', hx', hle⟩ := hbelow _ q hq y hy hyn hyp rfl
    obtain ⟨⟨p', hp', rfl⟩, x'', hx'', h1', h2', hall'⟩ := (hrec t').1 ht'
    rw [hx'] at hx''; cases hx''
    -- the last record has the smallest loss of all records
    have hxx : p'.2 = p.2 ∨ num p'.2 < num p.2 := by
      have hpw := (hsort.sublist hsub)
      obtain ⟨init, hinit⟩ := List.getLast?_eq_some_iff.1 ht
      rw [hinit] at ht' hpw
      rcases List.mem_append.1 ht' with h | h
      · exact Or.inr ((List.pairwise_append.1 hpw).2.2 _ h _ (by simp))
      · exact Or.inl (by simpa using h)
    rcases hxx with he | hlt
    · rw [he, hx] at hx'; cases hx'
      by_cases hxy : PyFloat.lt x y = true
      · exact Or.inr (Or.inl hxy)
      · refine Or.inr (Or.inr ⟨hle, ?_⟩)
        intro hea
        rcases hall q hq hea y hy with h | h
        · exact hyn h
        · exact hxy h
    · right; left
      have h3 : PyFloat.lt x x' = true :=
        ((hall p' hp' ((hearlier p' hp' p hp).2 hlt) x' hx').resolve_left h1')
      exact lt_of_lt_of_le' h3 hle
  · intro h q hq y hy
    by_contra hcon
    push Not at hcon
    obtain ⟨t, ht, _⟩ := hbelow _ q hq y hy hcon.1 hcon.2 rfl
    have : res = [] := by simpa using h
    rw [this] at ht
    exact absurd ht (by simp)

/-- **C97**: with trials numbered `"1"`, `"2"`, ... and a loss in every report, `neps results` lists
exactly the trials whose loss is smaller than that of all trials with a smaller number, latest
first; the trial on top is the best one. -/
theorem C97_numbered_partial (trials : List (String × Trial)) (hid : Status.ById trials)
    (hl : AllHaveLoss trials) (hn : ∀ p ∈ trials, ∃ n, HasNumber p.2 n) :
    ∃ shown, results trials = .ok shown ∧
      AreIncumbents (fun s t => ∃ m n, HasNumber s m ∧ HasNumber t n ∧ m < n) trials shown := by
  have hkey : ∀ t n, HasNumber t n → pyInt t.id.toList = some (n : Int) := by
    intro t n h; rw [h, String.toList_ofList, pyInt_natStr']
  have huniq : ∀ t m n, HasNumber t m → HasNumber t n → m = n := by
    intro t m n h h'
    have := hkey t m h
    rw [hkey t n h'] at this
    simpa using this.symm
  refine results_numbered (fun t => (pyInt t.id.toList).getD 0) _ trials hid hl ?_ ?_ ?_
  · intro p hp; obtain ⟨n, h⟩ := hn p hp; simp [hkey _ _ h]
  · intro p hp q hq he
    obtain ⟨m, hm⟩ := hn p hp
    obtain ⟨n, hn⟩ := hn q hq
    simp only [hkey _ _ hm, hkey _ _ hn, Option.getD_some, Nat.cast_inj] at he
    rw [show p.2.id = _ from hm, show q.2.id = _ from hn, he]
  · intro p hp q hq
    obtain ⟨m, hm⟩ := hn p hp
    obtain ⟨n, hn⟩ := hn q hq
    simp only [hkey _ _ hm, hkey _ _ hn, Option.getD_some, Nat.cast_lt]
    constructor
    · rintro ⟨m', n', hm', hn', h⟩
      rwa [huniq _ _ _ hm hm', huniq _ _ _ hn hn']
    · intro h; exact ⟨m, n, hm, hn, h⟩

/-- **C97** for multi-fidelity runs: with ids `"<config>_<rung>"`, rungs below 10 and a loss in every
report, the trials are taken in the order of their configurations, and the rungs of one
configuration one after the other. -/
theorem C97_rungs_partial (trials : List (String × Trial)) (hid : Status.ById trials)
    (hl : AllHaveLoss trials) (hn : ∀ p ∈ trials, ∃ c r, r < 10 ∧ HasRung p.2 c r) :
    ∃ shown, results trials = .ok shown ∧
      AreIncumbents (fun s t => ∃ c r c' r', HasRung s c r ∧ HasRung t c' r' ∧
        (c < c' ∨ c = c' ∧ r < r')) trials shown := by
  have hkey : ∀ t c r, r < 10 → HasRung t c r → pyInt t.id.toList = some ((c * 10 + r : Nat) : Int) := by
    intro t c r h10 h
    rw [h, String.toList_ofList, pyInt_fmtId, natStr_length_lt_ten h10, Nat.pow_one]
  have huniq : ∀ t c r c' r', HasRung t c r → HasRung t c' r' → c = c' ∧ r = r' := by
    intro t c r c' r' h h'
    rw [HasRung, h, String.ofList_inj] at h'
    exact fmtId_injective h'
  refine results_numbered (fun t => (pyInt t.id.toList).getD 0) _ trials hid hl ?_ ?_ ?_
  · intro p hp; obtain ⟨c, r, h10, h⟩ := hn p hp; simp [hkey _ _ _ h10 h]
  · intro p hp q hq he
    obtain ⟨c, r, h10, h⟩ := hn p hp
    obtain ⟨c', r', h10', h'⟩ := hn q hq
    simp only [hkey _ _ _ h10 h, hkey _ _ _ h10' h', Option.getD_some, Nat.cast_inj] at he
    have : c = c' ∧ r = r' := by omega
    rw [show p.2.id = _ from h, show q.2.id = _ from h', this.1, this.2]
  · intro p hp q hq
    obtain ⟨c, r, h10, h⟩ := hn p hp
    obtain ⟨c', r', h10', h'⟩ := hn q hq
    simp only [hkey _ _ _ h10 h, hkey _ _ _ h10' h', Option.getD_some, Nat.cast_lt]
    constructor
    · rintro ⟨d, e, d', e', g, g', hlt⟩
      obtain ⟨rfl, rfl⟩ := huniq _ _ _ _ _ h g
      obtain ⟨rfl, rfl⟩ := huniq _ _ _ _ _ h' g'
      omega
    · intro hlt; exact ⟨c, r, c', r', h, h', by omega⟩

/-- The position of a trial in a sorted list. -/
theorem findIdx_sorted (num : Trial → Int) :
    ∀ (l : List Trial) (t : Trial), l.Pairwise (fun a b => num a < num b) →
      (∀ a ∈ l, ∀ b ∈ l, a.id = b.id → num a = num b) → t ∈ l →
      l.findIdx (fun s => s.id = t.id) = l.countP (fun s => num s < num t)
  | [], t, _, _, h => by simp at h
  | a :: l, t, hp, hi, h => by
    obtain ⟨h0, hp'⟩ := List.pairwise_cons.1 hp
    by_cases hid : a.id = t.id
    · have hn := hi a (by simp) t h hid
      rw [List.findIdx_cons]
      have : (a :: l).countP (fun s => num s < num t) = 0 := by
        rw [List.countP_eq_zero]
        intro s hs
        simp only [decide_eq_true_eq, not_lt]
        rcases List.mem_cons.1 hs with rfl | hs
        · exact hn.ge
        · rw [← hn]; exact (h0 s hs).le
      simp [hid, this]
    · have hm : t ∈ l := by
        rcases List.mem_cons.1 h with rfl | h
        · exact absurd rfl hid
        · exact h
      rw [List.findIdx_cons, List.countP_cons]
      have ih := findIdx_sorted num l t hp' (fun a ha b hb => hi a (by simp [ha]) b (by simp [hb])) hm
      simp [hid, ih, h0 t hm]

/-- **C97** for `--plot`: the curve has one point per incumbent, from the first to the last: its loss
over one plus the number of trials with a smaller number. -/
theorem C97_plot_partial (trials : List (String × Trial)) (hid : Status.ById trials)
    (hl : AllHaveLoss trials) (hn : ∀ p ∈ trials, ∃ n, HasNumber p.2 n) (shown : List Trial)
    (hshown : results trials = .ok shown) :
    ∃ pts, resultsPlot trials = .ok pts ∧
      pts.map (fun p => some p.2) = shown.reverse.map lossIn ∧
      ∀ (i : ℕ) (t : Trial) (n x : ℕ) (y : PyFloat), shown.reverse[i]? = some t → HasNumber t n →
        pts[i]? = some (x, y) →
        x = 1 + trials.countP (fun p => decide (∃ m, m < n ∧ p.1 = String.ofList (natStr m))) := by
  have hkey : ∀ t n, HasNumber t n → pyInt t.id.toList = some (n : Int) := by
    intro t n h; rw [h, String.toList_ofList, pyInt_natStr']
  let num : Trial → Int := fun t => (pyInt t.id.toList).getD 0
  have hnum : ∀ p ∈ trials, pyInt p.2.id.toList = some (num p.2) := by
    intro p hp; obtain ⟨n, h⟩ := hn p hp; simp [num, hkey _ _ h]
  have hk : keyed (trials.map Prod.snd) = .ok ((trials.map Prod.snd).map (fun t => (num t, t))) :=
    keyed_ok num _ (fun t ht => by
      obtain ⟨p, hp, rfl⟩ := List.mem_map.1 ht
      exact hnum p hp)
  have hnd : ((trials.map Prod.snd).map num).Nodup := by
    rw [List.map_map]
    refine (List.nodup_map_iff_inj_on (List.Nodup.of_map _ hid.1)).2 ?_
    intro p hp q hq he
    obtain ⟨m, hm⟩ := hn p hp
    obtain ⟨n, hn'⟩ := hn q hq
    simp only [Function.comp, num, hkey _ _ hm, hkey _ _ hn', Option.getD_some, Nat.cast_inj] at he
    subst he
    have h1 : p.2.id = q.2.id := by rw [show p.2.id = _ from hm, show q.2.id = _ from hn']
    rw [hid.2 p hp, hid.2 q hq] at h1
    exact List.inj_on_of_nodup_map hid.1 hp hq h1
  obtain ⟨hperm, hsort⟩ := sorted_ids num _ hnd
  obtain ⟨res, hres, hsub, hiff⟩ := incumbents_spec num _ .pinf (by simp)
    (fun t ht r hr => by
      obtain ⟨p, hp, rfl⟩ := List.mem_map.1 (hperm.mem_iff.1 ht)
      exact hl p hp r hr) hsort
  have hs : shown = res.reverse := by
    simp only [results, hk, hres, Except.ok.injEq] at hshown
    exact hshown.symm
  subst hs
  rw [List.reverse_reverse]
  have hloss : ∀ t ∈ res, ∃ r x, t.report = some r ∧ r.loss = some x ∧ lossIn t = some x := by
    intro t ht
    obtain ⟨x, hx, _⟩ := (hiff t (hsub.subset ht)).1 ht
    cases hr : t.report with
    | none => simp [lossIn, hr] at hx
    | some r => exact ⟨r, x, rfl, by simpa [lossIn, hr] using hx, hx⟩
  set srt := (sortKeyed ((trials.map Prod.snd).map (fun t => (num t, t)))).map Prod.snd with hsrt
  have hpts : plotPoints srt res =
      res.map (fun t => (srt.findIdx (fun s => s.id = t.id) + 1, (lossIn t).getD .nan)) := by
    unfold plotPoints
    rw [← List.filterMap_eq_map]
    refine List.filterMap_congr ?_
    intro t ht
    obtain ⟨r, x, h1, h2, h3⟩ := hloss t ht
    simp [h1, h2, h3]
  refine ⟨plotPoints srt res, by simp only [resultsPlot, hk, hres, ← hsrt], ?_, ?_⟩
  · rw [hpts, List.map_map]
    refine List.map_congr_left ?_
    intro t ht
    obtain ⟨r, x, h1, h2, h3⟩ := hloss t ht
    simp [h3]
  · intro i t n x y hi hnt hp
    rw [hpts, List.getElem?_map, hi] at hp
    simp only [Option.map_some, Option.some.injEq, Prod.mk.injEq] at hp
    have htm : t ∈ srt := hsub.subset (List.mem_of_getElem? hi)
    have hidn : ∀ a ∈ srt, ∀ b ∈ srt, a.id = b.id → num a = num b := by
      intro a _ b _ h; simp only [num, h]
    rw [findIdx_sorted num srt t hsort hidn htm] at hp
    rw [← hp.1, Nat.add_comm, hperm.countP_eq, List.countP_map]
    congr 1
    refine List.countP_congr ?_
    intro p hp
    obtain ⟨m, hm⟩ := hn p hp
    simp only [Function.comp, num, hkey _ _ hm, hkey _ _ hnt, Option.getD_some, Nat.cast_lt,
      decide_eq_true_eq]
    rw [← hid.2 p hp]
    constructor
    · intro h; exact ⟨m, h, hm⟩
    · rintro ⟨m', h, he⟩
      have : m = m' := by
        have h1 := hkey _ _ hm
        have h2 := hkey p.2 m' he
        rw [h1] at h2
        simpa using h2
      omega

/-- A finished trial. -/
def finished (id : String) (time : Rat) (loss : PyFloat) : Trial :=
  { Trial.new id [] "" none none (.num time) "w" with
    state := .success
    report := some ⟨id, some loss, none, none, [], none, none, .success, none⟩ }

/-- A trial that waits. -/
def waiting (id : String) (time : Rat) : Trial := Trial.new id [] "" none none (.num time) "w"

/-- Eleven trials in the order in which the directory is read. -/
def demoTrials : List (String × Trial) :=
  [("10", finished "10" 10 (.num 1)), ("2", finished "2" 2 (.num 5)), ("1", finished "1" 1 .nan),
   ("3", finished "3" 3 (.num 7)), ("4", waiting "4" 4), ("11", finished "11" 11 (.num 1))]

example : results demoTrials = .ok [finished "10" 10 (.num 1), finished "2" 2 (.num 5)] ∧
    Status.ById demoTrials ∧ AllHaveLoss demoTrials ∧
    ∀ p ∈ demoTrials, ∃ n, HasNumber p.2 n := by
  refine ⟨by decide +kernel, ⟨by decide +kernel, by decide +kernel⟩, ?_, ?_⟩
  · intro p hp r hr
    simp only [demoTrials, List.mem_cons, List.not_mem_nil, or_false] at hp
    rcases hp with rfl | rfl | rfl | rfl | rfl | rfl <;>
      simp [finished, waiting, Trial.new] at hr <;> subst hr <;> rfl
  · intro p hp
    simp only [demoTrials, List.mem_cons, List.not_mem_nil, or_false] at hp
    rcases hp with rfl | rfl | rfl | rfl | rfl | rfl
    · exact ⟨10, by unfold HasNumber; decide +kernel⟩
    · exact ⟨2, by unfold HasNumber; decide +kernel⟩
    · exact ⟨1, by unfold HasNumber; decide +kernel⟩
    · exact ⟨3, by unfold HasNumber; decide +kernel⟩
    · exact ⟨4, by unfold HasNumber; decide +kernel⟩
    · exact ⟨11, by unfold HasNumber; decide +kernel⟩

/-- Two configurations at two rungs. -/
def demoRungs : List (String × Trial) :=
  [("2_0", finished "2_0" 2 (.num 4)), ("1_1", finished "1_1" 3 (.num 3)),
   ("1_0", finished "1_0" 1 (.num 5)), ("2_1", finished "2_1" 4 (.num 2))]

example : results demoRungs =
      .ok [finished "2_1" 4 (.num 2), finished "1_1" 3 (.num 3), finished "1_0" 1 (.num 5)] ∧
    ∀ p ∈ demoRungs, ∃ c r, r < 10 ∧ HasRung p.2 c r := by
  refine ⟨by decide +kernel, ?_⟩
  intro p hp
  simp only [demoRungs, List.mem_cons, List.not_mem_nil, or_false] at hp
  rcases hp with rfl | rfl | rfl | rfl
  · exact ⟨2, 0, by omega, by unfold HasRung; decide +kernel⟩
  · exact ⟨1, 1, by omega, by unfold HasRung; decide +kernel⟩
  · exact ⟨1, 0, by omega, by unfold HasRung; decide +kernel⟩
  · exact ⟨2, 1, by omega, by unfold HasRung; decide +kernel⟩

/-- **C97 fails** for multi-fidelity runs when trials are taken in the order in which they were
sampled: in `demoRungs`, trial `2_0` was better than the only trial sampled before it, but it is
not listed. -/
theorem C97_sampling_order_fails :
    ∃ shown, results demoRungs = .ok shown ∧
      ¬ AreIncumbents (fun s t => PyFloat.lt s.metadata.timeSampled t.metadata.timeSampled = true)
        demoRungs shown := by
  refine ⟨[finished "2_1" 4 (.num 2), finished "1_1" 3 (.num 3), finished "1_0" 1 (.num 5)],
    by decide +kernel, ?_⟩
  intro h
  have hrec : Record (fun s t => PyFloat.lt s.metadata.timeSampled t.metadata.timeSampled = true)
      demoRungs (finished "2_0" 2 (.num 4)) := by
    refine ⟨.num 4, rfl, by simp, by simp, ?_⟩
    intro p hp he y hy
    simp only [demoRungs, List.mem_cons, List.not_mem_nil, or_false] at hp
    rcases hp with rfl | rfl | rfl | rfl
    · exact absurd he (by decide +kernel)
    · exact absurd he (by decide +kernel)
    · have hy : y = .num 5 := by simpa [lossIn, finished, eq_comm] using hy
      subst hy
      exact Or.inr (by decide +kernel)
    · exact absurd he (by decide +kernel)
  have := (h.1 (finished "2_0" 2 (.num 4))).2
    ⟨⟨("2_0", finished "2_0" 2 (.num 4)), by simp [demoRungs], rfl⟩, hrec⟩
  simp [finished, Trial.new] at this

/-- Configuration 1 at rung 10, and configuration 2 at rung 0. -/
def deepRungs : List (String × Trial) :=
  [("1_10", finished "1_10" 1 (.num 1)), ("2_0", finished "2_0" 2 (.num 2))]

/-- **C97 fails** as soon as a rung has two digits: `int("1_10")` is 110 and `int("2_0")` is 20, so the
later configuration comes first and a trial that is no improvement is listed. -/
theorem C97_deep_rungs_fails :
    results deepRungs = .ok [finished "1_10" 1 (.num 1), finished "2_0" 2 (.num 2)] ∧
    ¬ Record (fun s t => ∃ c r c' r', HasRung s c r ∧ HasRung t c' r' ∧
        (c < c' ∨ c = c' ∧ r < r')) deepRungs (finished "2_0" 2 (.num 2)) := by
  refine ⟨by decide +kernel, ?_⟩
  rintro ⟨x, hx, _, _, h⟩
  have hx : x = .num 2 := by simpa [lossIn, finished, eq_comm] using hx
  subst hx
  have := h ("1_10", finished "1_10" 1 (.num 1)) (by simp [deepRungs])
    ⟨1, 10, 2, 0, by unfold HasRung; decide +kernel, by unfold HasRung; decide +kernel, by omega⟩
    (.num 1) (by simp [lossIn, finished])
  rcases this with h | h
  · exact PyFloat.noConfusion h
  · exact absurd h (by decide +kernel)

/-- **C97 fails**: one failed trial without a loss value makes `neps results` raise `TypeError`,
whatever the other trials are; nothing is listed. -/
theorem C97_failed_trial_fails (trials : List (String × Trial)) (k : String) (t : Trial) (r : Report)
    (hm : (k, t) ∈ trials) (hr : t.report = some r) (hl : r.loss = none) :
    ∃ e, results trials = .error e := by
  unfold results
  cases hk : keyed (trials.map Prod.snd) with
  | error e => exact ⟨e, rfl⟩
  | ok l =>
    have hkm : ∀ (ts : List Trial) l, keyed ts = .ok l → l.map Prod.snd = ts := by
      intro ts
      induction ts with
      | nil => intro l h; simp [keyed] at h; subst h; rfl
      | cons a ts ih =>
        intro l h
        simp only [keyed] at h
        cases h1 : pyInt a.id.toList with
        | none => simp [h1] at h
        | some n =>
          cases h2 : keyed ts with
          | error e => simp [h1, h2] at h
          | ok l' =>
            simp [h1, h2] at h
            subst h
            simp [ih l' h2]
    have herr : ∀ (ts : List Trial) best, t ∈ ts → ∃ e, incumbents best ts = .error e := by
      intro ts
      induction ts with
      | nil => simp
      | cons a ts ih =>
        intro best hmem
        simp only [incumbents]
        rcases List.mem_cons.1 hmem with rfl | hmem
        · simp [hr, hl]
        · cases h1 : a.report with
          | none => exact ih best hmem
          | some r' =>
            cases h2 : r'.loss with
            | none => simp [h2]
            | some x =>
              simp only [h2]
              split
              · obtain ⟨e, he⟩ := ih x hmem
                exact ⟨e, by rw [he]⟩
              · exact ih best hmem
    have hmem : t ∈ (sortKeyed l).map Prod.snd := by
      have h1 : ((sortKeyed l).map Prod.snd).Perm (l.map Prod.snd) :=
        (List.perm_insertionSort _ _).map _
      rw [h1.mem_iff, hkm _ _ hk]
      exact List.mem_map.2 ⟨(k, t), hm, rfl⟩
    obtain ⟨e, he⟩ := herr _ .pinf hmem
    exact ⟨e, by simp only [he]⟩

/-- Such a report is what the evaluation of a trial whose function raises leaves behind, with the
default settings. -/
example (fs : String → Option PyFloat) (t₀ : Trial) (e : Exc) (tb : String) (a b : PyFloat) :
    ∃ t r, evalTrial fs t₀ {} (.raised e tb) a b = .ok (t, r) ∧ r.loss = none :=
  ⟨_, _, rfl, rfl⟩

/-- **C97**: if no evaluation failed, the loss on top of the list is the best loss that `neps.status`
reports. -/
theorem C97_same_best (fs : String → Option PyFloat) (earlier : Trial → Trial → Prop)
    (trials : List (String × Trial)) (shown : List Trial) (s : Status.Summary) (t : Trial)
    (hk : Status.ById trials) (hl : ∀ p ∈ trials, Status.HasLoss p.2)
    (hs : ∀ p ∈ trials, ∀ r, p.2.report = some r → r.reportedAs = .success)
    (h : Status.summarize fs trials = .ok s) (hi : AreIncumbents earlier trials shown)
    (ht : shown.head? = some t) : lossIn t = some s.bestLoss := by
  have hloss : ∀ p ∈ trials, lossIn p.2 = Status.lossOf p.2 := by
    intro p hp
    unfold lossIn Status.lossOf
    cases hr : p.2.report with
    | none => rfl
    | some r => simp [hs p hp r hr]
  obtain ⟨x, hx, h1, h2, hall⟩ := hi.2.2.1 t ht
  obtain ⟨p, hp, rfl⟩ := ((hi.1 t).1 (List.mem_of_head? ht)).1
  rcases Status.C40_best fs trials s hk hl h with hb | hb
  · rw [hloss p hp] at hx
    rcases hb.2.2.2.2 p hp x hx with h | h
    · exact absurd h h2
    · exact absurd h h1
  · obtain ⟨before, k, t', after, he, _, _, _, hl', h1', h2', hbef, haft⟩ := hb
    have hm : (k, t') ∈ trials := by simp [he]
    have hy := hall (k, t') hm s.bestLoss (by rw [hloss _ hm]; exact hl')
    have hx' := hx
    rw [hloss p hp] at hx'
    have hz : PyFloat.le s.bestLoss x = true := by
      rw [he] at hp
      rcases List.mem_append.1 hp with hp | hp
      · exact le_of_lt' ((hbef p hp x hx').resolve_left h1)
      · rcases List.mem_cons.1 hp with rfl | hp
        · rw [hl'] at hx'; cases hx'; exact le_refl' h1
        · exact (haft p hp x hx').resolve_left h1
    have hy' : PyFloat.le x s.bestLoss = true := by
      rcases hy with hy | hy | hy
      · exact absurd hy h2'
      · exact le_of_lt' hy
      · exact hy.1
    rw [hx, le_antisymm' hy' hz]

/-- **C97 fails** to agree with `neps.status` when failed trials get a loss value: a crashed trial with
loss value 0 is listed on top, while the status names the successful trial. -/
theorem C97_error_value_fails (fs : String → Option PyFloat) :
    ∃ trials t s, results trials = .ok [t, finished "1" 1 (.num 5)] ∧ t.state = .crashed ∧
      Status.summarize fs trials = .ok s ∧ s.bestId = some "1" := by
  let t : Trial :=
    { finished "2" 2 (.num 0) with
      state := .crashed
      report := some ⟨"2", some (.num 0), none, none, [], none, none, .crashed, none⟩ }
  refine ⟨[("1", finished "1" 1 (.num 5)), ("2", t)], t, _, by decide +kernel, rfl, rfl, rfl⟩

end Neps.Cli
