import Verif.Spec.Timer
import Mathlib.Data.List.Nodup
import Mathlib.Data.List.Pairwise

namespace Cyclus.Timing

open Spec

variable {σ : Type}

/-! ## The decommission queue -/

theorem qget_nil_of_lt {q : List (ℤ × List ℕ)} {t : ℤ} (h : ∀ x ∈ q, t < x.1) : qget q t = [] := by
  induction q with
  | nil => rfl
  | cons x q ih =>
    obtain ⟨t', l⟩ := x
    have := h (t', l) List.mem_cons_self
    rw [qget, if_neg (by simp at this; omega)]
    exact ih fun y hy => h y (List.mem_cons_of_mem _ hy)

theorem qpush_get {q : List (ℤ × List ℕ)} (hq : (q.map Prod.fst).Pairwise (· < ·)) (t : ℤ) (m : ℕ)
    (t' : ℤ) : qget (qpush q t m) t' = if t' = t then qget q t ++ [m] else qget q t' := by
  induction q with
  | nil =>
    by_cases h : t' = t
    · subst h; simp [qpush, qget]
    · simp [qpush, qget, h, Ne.symm h]
  | cons x q ih =>
    obtain ⟨u, l⟩ := x
    simp only [List.map_cons, List.pairwise_cons] at hq
    unfold qpush
    by_cases h1 : u = t
    · rw [if_pos h1]
      subst h1
      by_cases h : t' = u
      · subst h; simp [qget]
      · simp [qget, h, Ne.symm h]
    · rw [if_neg h1]
      by_cases h2 : t < u
      · rw [if_pos h2]
        by_cases h : t' = t
        · subst h
          rw [if_pos rfl, qget, if_pos rfl, qget_nil_of_lt]; · rfl
          intro x hx
          rcases List.mem_cons.1 hx with rfl | hx
          · exact h2
          · exact lt_trans h2 (hq.1 _ (List.mem_map_of_mem hx))
        · rw [if_neg h, qget, if_neg (Ne.symm h)]
      · rw [if_neg h2, qget, ih hq.2]
        by_cases h : t' = t
        · subst h
          rw [if_neg h1, if_pos rfl, if_pos rfl, qget, if_neg h1]
        · simp only [if_neg h, qget]

theorem qpush_keys {q : List (ℤ × List ℕ)} (hq : (q.map Prod.fst).Pairwise (· < ·)) (t : ℤ)
    (m : ℕ) : ((qpush q t m).map Prod.fst).Pairwise (· < ·) ∧
      ∀ k, k ∈ (qpush q t m).map Prod.fst ↔ k = t ∨ k ∈ q.map Prod.fst := by
  induction q with
  | nil => simp [qpush]
  | cons x q ih =>
    obtain ⟨u, l⟩ := x
    simp only [List.map_cons, List.pairwise_cons] at hq
    unfold qpush
    by_cases h1 : u = t
    · rw [if_pos h1]
      subst h1
      refine ⟨by simpa using hq, by simp⟩
    · rw [if_neg h1]
      by_cases h2 : t < u
      · rw [if_pos h2]
        refine ⟨?_, by simp⟩
        simp only [List.map_cons, List.pairwise_cons]
        refine ⟨?_, hq⟩
        intro k hk
        rcases List.mem_cons.1 hk with rfl | hk
        · exact h2
        · exact lt_trans h2 (hq.1 k hk)
      · rw [if_neg h2]
        obtain ⟨i1, i2⟩ := ih hq.2
        refine ⟨?_, ?_⟩
        · simp only [List.map_cons, List.pairwise_cons]
          refine ⟨?_, i1⟩
          intro k hk
          rcases (i2 k).1 hk with rfl | hk
          · omega
          · exact hq.1 k hk
        · intro k
          rw [List.map_cons, List.mem_cons, i2, List.map_cons, List.mem_cons]
          tauto

theorem qremove_keys (q : List (ℤ × List ℕ)) (m : ℕ) :
    (qremove q m).map Prod.fst = q.map Prod.fst := by
  induction q with
  | nil => rfl
  | cons x q ih =>
    obtain ⟨u, l⟩ := x
    unfold qremove
    split_ifs
    · rfl
    · simp [ih]

theorem qremove_get {q : List (ℤ × List ℕ)} (hq : (q.map Prod.fst).Pairwise (· < ·)) {m : ℕ}
    (hone : ∀ t t', m ∈ qget q t → m ∈ qget q t' → t = t') (hn : ∀ t, (qget q t).Nodup) (t : ℤ) :
    qget (qremove q m) t = (qget q t).filter (· ≠ m) := by
  induction q with
  | nil => rfl
  | cons x q ih =>
    obtain ⟨u, l⟩ := x
    simp only [List.map_cons, List.pairwise_cons] at hq
    have hu : qget q u = [] :=
      qget_nil_of_lt fun x hx => hq.1 _ (List.mem_map_of_mem hx)
    have hl : qget ((u, l) :: q) u = l := by simp [qget]
    have hne : ∀ {t'}, t' ≠ u → qget ((u, l) :: q) t' = qget q t' := by
      intro t' h; rw [qget, if_neg (Ne.symm h)]
    unfold qremove
    by_cases hm : m ∈ l
    · rw [if_pos hm]
      by_cases ht : t = u
      · subst ht
        rw [hl, qget, if_pos rfl]
        have := hn t; rw [hl] at this
        rw [this.erase_eq_filter]
        congr 1
        funext x
        by_cases hx : x = m <;> simp [hx]
      · rw [hne ht, qget, if_neg (Ne.symm ht)]
        symm
        rw [List.filter_eq_self]
        intro a ha
        have : a ≠ m := by
          rintro rfl
          exact ht (hone t u (by rw [hne ht]; exact ha) (by rw [hl]; exact hm))
        simp [this]
    · rw [if_neg hm]
      by_cases ht : t = u
      · subst ht
        rw [hl, qget, if_pos rfl]
        symm
        rw [List.filter_eq_self]
        intro a ha
        have : a ≠ m := by rintro rfl; exact hm ha
        simp [this]
      · rw [hne ht, qget, if_neg (Ne.symm ht)]
        apply ih hq.2
        · intro t1 t2 h1 h2
          have n1 : t1 ≠ u := by rintro rfl; rw [hu] at h1; cases h1
          have n2 : t2 ≠ u := by rintro rfl; rw [hu] at h2; cases h2
          exact hone t1 t2 (by rw [hne n1]; exact h1) (by rw [hne n2]; exact h2)
        · intro t1
          by_cases h : t1 = u
          · rw [h, hu]; exact List.nodup_nil
          · have := hn t1; rwa [hne h] at this

theorem minsert_spec {l : List ℕ} (hl : l.Pairwise (· < ·)) (a : ℕ) :
    (minsert l a).Pairwise (· < ·) ∧ ∀ x, x ∈ minsert l a ↔ x = a ∨ x ∈ l := by
  induction l with
  | nil => simp [minsert]
  | cons y l ih =>
    rw [List.pairwise_cons] at hl
    unfold minsert
    by_cases h1 : a < y
    · rw [if_pos h1]
      refine ⟨?_, by simp⟩
      rw [List.pairwise_cons]
      refine ⟨?_, by rw [List.pairwise_cons]; exact hl⟩
      intro x hx
      rcases List.mem_cons.1 hx with rfl | hx
      · exact h1
      · exact lt_trans h1 (hl.1 x hx)
    · rw [if_neg h1]
      by_cases h2 : a = y
      · rw [if_pos h2]
        refine ⟨by rw [List.pairwise_cons]; exact hl, by subst h2; simp⟩
      · rw [if_neg h2]
        obtain ⟨i1, i2⟩ := ih hl.2
        refine ⟨?_, ?_⟩
        · rw [List.pairwise_cons]
          refine ⟨?_, i1⟩
          intro x hx
          rcases (i2 x).1 hx with rfl | hx
          · omega
          · exact hl.1 x hx
        · intro x; rw [List.mem_cons, i2, List.mem_cons]; tauto

/-! ## The agenda -/

theorem agendaStep_nodup {l : List (ℕ × ℤ)} (h : (l.map Prod.fst).Nodup) (e : Ev) :
    ((agendaStep l e).map Prod.fst).Nodup := by
  unfold agendaStep
  split
  · rename_i now m t
    rw [List.map_append, List.nodup_append']
    refine ⟨?_, by simp, ?_⟩
    · exact h.sublist (List.Sublist.map _ List.filter_sublist)
    · intro x hx hx'
      simp at hx hx'
      omega
  · exact h

theorem agenda_nodup (tr : List Ev) : ((agenda tr).map Prod.fst).Nodup := by
  unfold agenda
  suffices ∀ l : List (ℕ × ℤ), (l.map Prod.fst).Nodup →
      ((tr.foldl agendaStep l).map Prod.fst).Nodup from this [] (by simp)
  induction tr with
  | nil => intro l h; exact h
  | cons e tr ih => intro l h; exact ih _ (agendaStep_nodup h e)

theorem agenda_snoc (tr : List Ev) (e : Ev) : agenda (tr ++ [e]) = agendaStep (agenda tr) e := by
  simp [agenda]

theorem pending_nodup (tr : List Ev) (t : ℤ) : (pending tr t).Nodup :=
  (agenda_nodup tr).sublist (List.Sublist.map _ List.filter_sublist)

theorem mem_pending {tr : List Ev} {t : ℤ} {a : ℕ} : a ∈ pending tr t ↔ (a, t) ∈ agenda tr := by
  simp [pending]

theorem agenda_unique {tr : List Ev} {a : ℕ} {t t' : ℤ} (h : (a, t) ∈ agenda tr)
    (h' : (a, t') ∈ agenda tr) : t = t' := by
  have := List.inj_on_of_nodup_map (agenda_nodup tr) h h' rfl
  exact congrArg Prod.snd this

theorem schedFor_append (a b : List Ev) (t : ℤ) :
    schedFor (a ++ b) t = schedFor a t ++ schedFor b t := by simp [schedFor]

theorem builtAt_append (a b : List Ev) (t : ℤ) :
    builtAt (a ++ b) t = builtAt a t ++ builtAt b t := by simp [builtAt]

theorem decomsAt_append (a b : List Ev) (t : ℤ) :
    decomsAt (a ++ b) t = decomsAt a t ++ decomsAt b t := by simp [decomsAt]

theorem calls_append (a b : List Ev) : calls (a ++ b) = calls a ++ calls b := by simp [calls]

theorem builtAt_calls (tr : List Ev) (t : ℤ) : builtAt (calls tr) t = builtAt tr t := by
  unfold builtAt calls
  rw [List.filterMap_filter]
  apply List.filterMap_congr
  intro e _
  cases e <;> rfl

theorem decomsAt_calls (tr : List Ev) (t : ℤ) : decomsAt (calls tr) t = decomsAt tr t := by
  unfold decomsAt calls
  rw [List.filterMap_filter]
  apply List.filterMap_congr
  intro e _
  cases e <;> rfl

/-! ## The invariant -/

/-- How the timer relates to what was asked of it. -/
structure Inv (W : World σ) (s : Sim σ) : Prop where
  builds : ∀ t, s.t.builds t = schedFor s.trace t
  keys : (s.t.decoms.map Prod.fst).Pairwise (· < ·)
  decoms : ∀ t, qget s.t.decoms t = pending s.trace t
  py : s.t.py = (listeners s.trace).filter W.shim
  cpp : s.t.cpp = (listeners s.trace).filter fun a => !W.shim a
  tick : s.t.tickers.Pairwise (· < ·)
  mem : ∀ a, a ∈ s.t.tickers ↔ a ∈ listeners s.trace
  kill : s.t.wantKill = true ↔ killed s.trace

theorem Inv.call {W : World σ} {s : Sim σ} (h : Inv W s) (o : Op) : Inv W (s.call W o) := by
  cases o with
  | schedBuild proto parent t =>
    by_cases hb : buildTime s.t.time t ≤ s.t.time
    · have e : s.call W (.schedBuild proto parent t) =
          { s with trace := s.trace ++ [.op s.t.time (.schedBuild proto parent t) false] } := by
        simp only [Sim.call, Timer.call, if_pos hb]
      rw [e]
      refine ⟨?_, h.keys, ?_, ?_, ?_, h.tick, ?_, ?_⟩
      · intro t'; rw [schedFor_append]; simpa [schedFor] using h.builds t'
      · intro t'; simp only [pending, agenda_snoc, agendaStep]; exact h.decoms t'
      · simpa [listeners, listenStep] using h.py
      · simpa [listeners, listenStep] using h.cpp
      · simpa [listeners, listenStep] using h.mem
      · simpa [killed] using h.kill
    · have e : s.call W (.schedBuild proto parent t) =
          { s with
            t := { s.t with builds := Function.update s.t.builds (buildTime s.t.time t)
                              (s.t.builds (buildTime s.t.time t) ++ [(proto, parent)]) }
            trace := s.trace ++ [.op s.t.time (.schedBuild proto parent t) true] } := by
        simp only [Sim.call, Timer.call, if_neg hb]
      rw [e]
      refine ⟨?_, h.keys, ?_, ?_, ?_, h.tick, ?_, ?_⟩
      · intro t'
        rw [schedFor_append, ← h.builds t']
        simp only [Function.update_apply, buildTime]
        by_cases ht : t' = if t = -1 then s.t.time + 1 else t
        · rw [if_pos ht]; subst ht; simp [schedFor]
        · rw [if_neg ht]; simp [schedFor, Ne.symm ht]
      · intro t'; simp only [pending, agenda_snoc, agendaStep]; exact h.decoms t'
      · simpa [listeners, listenStep] using h.py
      · simpa [listeners, listenStep] using h.cpp
      · simpa [listeners, listenStep] using h.mem
      · simpa [killed] using h.kill
  | schedDecom m t =>
    by_cases hb : decomTime s.t.time t < s.t.time
    · have e : s.call W (.schedDecom m t) =
          { s with trace := s.trace ++ [.op s.t.time (.schedDecom m t) false] } := by
        simp only [Sim.call, Timer.call, if_pos hb]
      rw [e]
      refine ⟨?_, h.keys, ?_, ?_, ?_, h.tick, ?_, ?_⟩
      · intro t'; rw [schedFor_append]; simpa [schedFor] using h.builds t'
      · intro t'; simp only [pending, agenda_snoc, agendaStep]; exact h.decoms t'
      · simpa [listeners, listenStep] using h.py
      · simpa [listeners, listenStep] using h.cpp
      · simpa [listeners, listenStep] using h.mem
      · simpa [killed] using h.kill
    · have e : s.call W (.schedDecom m t) =
          { s with
            t := { s.t with decoms := qpush (qremove s.t.decoms m) (decomTime s.t.time t) m }
            trace := s.trace ++ [.op s.t.time (.schedDecom m t) true] } := by
        simp only [Sim.call, Timer.call, if_neg hb]
      rw [e]
      have hk : ((qremove s.t.decoms m).map Prod.fst).Pairwise (· < ·) := by
        rw [qremove_keys]; exact h.keys
      have hg : ∀ t', qget (qremove s.t.decoms m) t' = (pending s.trace t').filter (· ≠ m) := by
        intro t'
        rw [qremove_get h.keys ?_ ?_ t', h.decoms]
        · intro t1 t2 h1 h2
          rw [h.decoms, mem_pending] at h1 h2
          exact agenda_unique h1 h2
        · intro t1; rw [h.decoms]; exact pending_nodup _ _
      refine ⟨?_, (qpush_keys hk _ _).1, ?_, ?_, ?_, h.tick, ?_, ?_⟩
      · intro t'; rw [schedFor_append]; simpa [schedFor] using h.builds t'
      · intro t'
        show qget (qpush _ _ _) t' = _
        rw [qpush_get hk, hg, hg]
        simp only [pending, agenda_snoc, agendaStep, List.filter_append, List.map_append]
        have hd : (if t = -1 then s.t.time else t) = decomTime s.t.time t := rfl
        rw [hd]
        have hc : ∀ t'', ((List.filter (fun x => decide (x.1 ≠ m)) (agenda s.trace)).filter
            (fun x => decide (x.2 = t''))).map Prod.fst =
            (((agenda s.trace).filter (fun x => decide (x.2 = t''))).map Prod.fst).filter
              (fun x => decide (x ≠ m)) := by
          intro t''
          rw [List.filter_map, List.filter_filter, List.filter_filter]
          congr 1
          apply List.filter_congr
          intro x _
          simp [Bool.and_comm]
        rw [hc t']
        by_cases ht : t' = decomTime s.t.time t
        · rw [if_pos ht, ← ht]; simp
        · rw [if_neg ht]; simp [Ne.symm ht]
      · simpa [listeners, listenStep] using h.py
      · simpa [listeners, listenStep] using h.cpp
      · simpa [listeners, listenStep] using h.mem
      · simpa [killed] using h.kill
  | kill =>
    refine ⟨?_, h.keys, ?_, ?_, ?_, h.tick, ?_, ?_⟩
    · intro t'
      simp only [Sim.call, Timer.call, schedFor_append]; simpa [schedFor] using h.builds t'
    · intro t'; simp only [Sim.call, Timer.call, pending, agenda_snoc, agendaStep]; exact h.decoms t'
    · simpa [Sim.call, Timer.call, listeners, listenStep] using h.py
    · simpa [Sim.call, Timer.call, listeners, listenStep] using h.cpp
    · simpa [Sim.call, Timer.call, listeners, listenStep] using h.mem
    · simp only [Sim.call, Timer.call, killed, true_iff]
      exact ⟨_, _, List.mem_append_right _ (List.mem_singleton.2 rfl)⟩
  | snapshot =>
    refine ⟨?_, h.keys, ?_, ?_, ?_, h.tick, ?_, ?_⟩
    · intro t'
      simp only [Sim.call, Timer.call, schedFor_append]; simpa [schedFor] using h.builds t'
    · intro t'; simp only [Sim.call, Timer.call, pending, agenda_snoc, agendaStep]; exact h.decoms t'
    · simpa [Sim.call, Timer.call, listeners, listenStep] using h.py
    · simpa [Sim.call, Timer.call, listeners, listenStep] using h.cpp
    · simpa [Sim.call, Timer.call, listeners, listenStep] using h.mem
    · simpa [Sim.call, Timer.call, killed] using h.kill
  | register a =>
    have e : s.call W (.register a) =
        { s with
          t := { s.t with
            tickers := minsert s.t.tickers a
            py := if W.shim a then s.t.py ++ [a] else s.t.py
            cpp := if W.shim a then s.t.cpp else s.t.cpp ++ [a] }
          trace := s.trace ++ [.op s.t.time (.register a) true] } := by
      cases ha : W.shim a <;> simp [Sim.call, Timer.call, ha]
    have el : listeners (s.trace ++ [.op s.t.time (.register a) true]) = listeners s.trace ++ [a] := by
      simp [listeners, listenStep]
    rw [e]
    refine ⟨?_, h.keys, ?_, ?_, ?_, (minsert_spec h.tick a).1, ?_, ?_⟩
    · intro t'; rw [schedFor_append]; simpa [schedFor] using h.builds t'
    · intro t'; simp only [pending, agenda_snoc, agendaStep]; exact h.decoms t'
    · simp only [el, List.filter_append, h.py]
      cases ha : W.shim a <;> simp [ha]
    · simp only [el, List.filter_append, h.cpp]
      cases ha : W.shim a <;> simp [ha]
    · intro x
      simp only [el, (minsert_spec h.tick a).2, h.mem, List.mem_append, List.mem_singleton]
      tauto
    · simpa [killed] using h.kill
  | unregister a =>
    have e : s.call W (.unregister a) =
        { s with
          t := { s.t with
            tickers := s.t.tickers.filter (· ≠ a)
            py := if W.shim a then s.t.py.filter (· ≠ a) else s.t.py
            cpp := if W.shim a then s.t.cpp else s.t.cpp.filter (· ≠ a) }
          trace := s.trace ++ [.op s.t.time (.unregister a) true] } := by
      cases ha : W.shim a <;> simp [Sim.call, Timer.call, ha]
    have el : listeners (s.trace ++ [.op s.t.time (.unregister a) true]) =
        (listeners s.trace).filter (· ≠ a) := by
      simp [listeners, listenStep]
    rw [e]
    refine ⟨?_, h.keys, ?_, ?_, ?_, h.tick.sublist List.filter_sublist, ?_, ?_⟩
    · intro t'; rw [schedFor_append]; simpa [schedFor] using h.builds t'
    · intro t'; simp only [pending, agenda_snoc, agendaStep]; exact h.decoms t'
    · simp only [el, h.py]
      cases ha : W.shim a
      · simp only [Bool.false_eq_true, if_false, List.filter_filter]
        apply List.filter_congr
        intro x _
        by_cases hx : x = a
        · subst hx; simp [ha]
        · simp [hx]
      · simp only [if_true, List.filter_filter]
        apply List.filter_congr
        intro x _
        rw [Bool.and_comm]
    · simp only [el, h.cpp]
      cases ha : W.shim a
      · simp only [Bool.false_eq_true, if_false, List.filter_filter]
        apply List.filter_congr
        intro x _
        rw [Bool.and_comm]
      · simp only [if_true, List.filter_filter]
        apply List.filter_congr
        intro x _
        by_cases hx : x = a
        · subst hx; simp [ha]
        · simp [hx]
    · intro x
      simp only [el, List.mem_filter, h.mem]
    · simpa [killed] using h.kill

/-- A call of the timer leaves the relation as it is. -/
theorem Inv.event {W : World σ} {s : Sim σ} (h : Inv W s) (w : σ) {e : Ev} (he : isCall e = true) :
    Inv W { s with w := w, trace := s.trace ++ [e] } := by
  have hs : ∀ t, schedFor (s.trace ++ [e]) t = schedFor s.trace t := by
    intro t; cases e <;> simp_all [schedFor, isCall]
  have ha : agenda (s.trace ++ [e]) = agenda s.trace := by
    rw [agenda_snoc]; cases e <;> simp_all [agendaStep, isCall]
  have hl : listeners (s.trace ++ [e]) = listeners s.trace := by
    simp only [listeners, List.foldl_append, List.foldl_cons, List.foldl_nil]
    cases e <;> simp_all [listenStep, isCall]
  have hk : killed (s.trace ++ [e]) ↔ killed s.trace := by
    unfold killed
    constructor
    · rintro ⟨t, ok, hm⟩
      rcases List.mem_append.1 hm with hm | hm
      · exact ⟨t, ok, hm⟩
      · rw [List.mem_singleton] at hm; subst hm; simp [isCall] at he
    · rintro ⟨t, ok, hm⟩
      exact ⟨t, ok, List.mem_append_left _ hm⟩
  exact ⟨fun t => by rw [hs]; exact h.builds t, h.keys, fun t => by rw [pending, ha]; exact h.decoms t,
    by rw [hl]; exact h.py, by rw [hl]; exact h.cpp, h.tick, fun a => by rw [hl]; exact h.mem a,
    h.kill.trans hk.symm⟩

/-! ## Progress of a run -/

/-- What a part of a run adds to the trace: all at time `T`, acceptance as specified. -/
def Fair (T : ℤ) (seg : List Ev) : Prop :=
  (∀ e ∈ seg, time e = T) ∧ ∀ now o ok, Ev.op now o ok ∈ seg → ok = accepts now o

theorem Fair.append {T : ℤ} {a b : List Ev} (h : Fair T a) (h' : Fair T b) : Fair T (a ++ b) := by
  refine ⟨?_, ?_⟩
  · intro e he; rcases List.mem_append.1 he with he | he
    · exact h.1 e he
    · exact h'.1 e he
  · intro now o ok he; rcases List.mem_append.1 he with he | he
    · exact h.2 now o ok he
    · exact h'.2 now o ok he

theorem call_fair (W : World σ) (s : Sim σ) (o : Op) :
    (s.call W o).t.time = s.t.time ∧ (s.call W o).t.dur = s.t.dur ∧
    ∃ ok, (s.call W o).trace = s.trace ++ [.op s.t.time o ok] ∧ ok = accepts s.t.time o := by
  cases o with
  | schedBuild proto parent t =>
    by_cases hb : buildTime s.t.time t ≤ s.t.time
    · refine ⟨by simp [Sim.call, Timer.call, hb], by simp [Sim.call, Timer.call, hb], false,
        by simp [Sim.call, Timer.call, hb], ?_⟩
      unfold buildTime at hb
      simp only [accepts]
      split_ifs at hb with h
      · omega
      · symm; simp [h]; omega
    · refine ⟨by simp [Sim.call, Timer.call, hb], by simp [Sim.call, Timer.call, hb], true,
        by simp [Sim.call, Timer.call, hb], ?_⟩
      unfold buildTime at hb
      simp only [accepts]
      split_ifs at hb with h
      · simp [h]
      · symm; simp [h]; omega
  | schedDecom m t =>
    by_cases hb : decomTime s.t.time t < s.t.time
    · refine ⟨by simp [Sim.call, Timer.call, hb], by simp [Sim.call, Timer.call, hb], false,
        by simp [Sim.call, Timer.call, hb], ?_⟩
      unfold decomTime at hb
      simp only [accepts]
      split_ifs at hb with h
      · omega
      · symm; simp [h]; omega
    · refine ⟨by simp [Sim.call, Timer.call, hb], by simp [Sim.call, Timer.call, hb], true,
        by simp [Sim.call, Timer.call, hb], ?_⟩
      unfold decomTime at hb
      simp only [accepts]
      split_ifs at hb with h
      · simp [h]
      · symm; simp [h]; omega
  | kill => exact ⟨rfl, rfl, true, rfl, rfl⟩
  | snapshot => exact ⟨rfl, rfl, true, rfl, rfl⟩
  | register a =>
    cases ha : W.shim a <;>
      exact ⟨by simp [Sim.call, Timer.call, ha], by simp [Sim.call, Timer.call, ha], true,
        by simp [Sim.call, Timer.call], rfl⟩
  | unregister a =>
    cases ha : W.shim a <;>
      exact ⟨by simp [Sim.call, Timer.call, ha], by simp [Sim.call, Timer.call, ha], true,
        by simp [Sim.call, Timer.call], rfl⟩

/-- From `s` the run proceeds to `s'`, the timer making the calls `evs`. -/
inductive Adv (W : World σ) : Sim σ → Sim σ → List Ev → Prop
  | nil (s : Sim σ) : Adv W s s []
  | snoc {s s' : Sim σ} {evs : List Ev} {e : Ev} (h : Adv W s s' evs) (hc : isCall e = true)
      (ht : time e = s'.t.time) : Adv W s (s'.fire W e) (evs ++ [e])

theorem Adv.trans {W : World σ} {a b c : Sim σ} {x y : List Ev} (h : Adv W a b x)
    (h' : Adv W b c y) : Adv W a c (x ++ y) := by
  induction h' with
  | nil => simpa using h
  | snoc _ hc ht ih => rw [← List.append_assoc]; exact ih.snoc hc ht

/-- Consequences of a part of a run. -/
structure Adv.Res (W : World σ) (s s' : Sim σ) (evs seg : List Ev) : Prop where
  trace : s'.trace = s.trace ++ seg
  calls : calls seg = evs
  time : s'.t.time = s.t.time
  dur : s'.t.dur = s.t.dur
  fair : Fair s.t.time seg
  inv : Inv W s → Inv W s'
  head : evs = [] → seg = []
  first : ∀ e rest, evs = e :: rest → ∃ rest', seg = e :: rest'
  snap : (∀ t, Ev.snap t ∉ evs) → (s.t.wantSnapshot = requested s.trace) →
    s'.t.wantSnapshot = requested s'.trace

theorem calls_fold (W : World σ) (ops : List Op) : ∀ (s : Sim σ),
    (ops.foldl (Sim.call W) s).t.time = s.t.time ∧ (ops.foldl (Sim.call W) s).t.dur = s.t.dur ∧
    (Inv W s → Inv W (ops.foldl (Sim.call W) s)) ∧
    (s.t.wantSnapshot = requested s.trace →
      (ops.foldl (Sim.call W) s).t.wantSnapshot = requested (ops.foldl (Sim.call W) s).trace) ∧
    ∃ seg, (ops.foldl (Sim.call W) s).trace = s.trace ++ seg ∧ calls seg = [] ∧
      Fair s.t.time seg := by
  induction ops with
  | nil => intro s; exact ⟨rfl, rfl, fun h => h, fun h => h, [], by simp, rfl, by simp [Fair]⟩
  | cons o ops ih =>
    intro s
    obtain ⟨h1, h2, ok, h3, h4⟩ := call_fair W s o
    obtain ⟨i1, i2, i3, i5, seg, i6, i7, i8⟩ := ih (s.call W o)
    rw [List.foldl_cons]
    refine ⟨i1.trans h1, i2.trans h2, fun h => i3 (h.call o), fun h => i5 ?_,
      .op s.t.time o ok :: seg, by rw [i6, h3]; simp, ?_, ?_⟩
    · rw [h3]
      simp only [requested, List.foldl_append, List.foldl_cons, List.foldl_nil] at h ⊢
      cases o with
      | schedBuild p q t =>
        by_cases hb : buildTime s.t.time t ≤ s.t.time <;> simpa [Sim.call, Timer.call, hb] using h
      | schedDecom m t =>
        by_cases hb : decomTime s.t.time t < s.t.time <;> simpa [Sim.call, Timer.call, hb] using h
      | kill => simpa [Sim.call, Timer.call] using h
      | snapshot => simp [Sim.call, Timer.call]
      | register a => cases ha : W.shim a <;> simpa [Sim.call, Timer.call, ha] using h
      | unregister a => cases ha : W.shim a <;> simpa [Sim.call, Timer.call, ha] using h
    · simpa [Spec.calls, isCall] using i7
    · rw [h1] at i8
      have : Fair s.t.time [.op s.t.time o ok] := by
        refine ⟨by simp [Spec.time], ?_⟩
        intro now o' ok' hm
        rw [List.mem_singleton] at hm
        cases hm
        exact h4
      exact this.append i8

theorem fire_res {W : World σ} {s : Sim σ} {e : Ev} (hc : isCall e = true)
    (ht : time e = s.t.time) : ∃ seg, Adv.Res W s (s.fire W e) [e] (e :: seg) := by
  obtain ⟨h1, h2, h3, h5, seg, h6, h7, h8⟩ := calls_fold W (W.act s.w s.t e).2
    { s with w := (W.act s.w s.t e).1, trace := s.trace ++ [e] }
  refine ⟨seg, ?_, ?_, h1, h2, ?_, fun h => h3 (h.event _ hc), by simp, ?_, ?_⟩
  · rw [Sim.fire, h6]; simp
  · simp only [Spec.calls] at h7 ⊢
    rw [List.filter_cons, if_pos hc, h7]
  · have : Fair s.t.time [e] := by
      refine ⟨by simpa using ht, ?_⟩
      intro now o ok hm
      rw [List.mem_singleton] at hm
      subst hm; simp [isCall] at hc
    exact this.append h8
  · intro e' rest he
    cases he
    exact ⟨seg, rfl⟩
  · intro hns h
    apply h5
    show s.t.wantSnapshot = requested (s.trace ++ [e])
    rw [h]
    simp only [requested, List.foldl_append, List.foldl_cons, List.foldl_nil]
    cases e <;> simp_all [isCall]

theorem Adv.res {W : World σ} {s s' : Sim σ} {evs : List Ev} (h : Adv W s s' evs) :
    ∃ seg, Adv.Res W s s' evs seg := by
  induction h with
  | nil =>
    exact ⟨[], by simp, rfl, rfl, rfl, by simp [Fair], fun h => h, fun _ => rfl, by simp,
      fun _ h => h⟩
  | @snoc s' evs e _ hc ht ih =>
    obtain ⟨seg, r⟩ := ih
    obtain ⟨seg', r'⟩ := fire_res (W := W) hc ht
    refine ⟨seg ++ e :: seg', ?_, ?_, r'.time.trans r.time, r'.dur.trans r.dur, ?_,
      fun h => r'.inv (r.inv h), by simp, ?_, ?_⟩
    · rw [r'.trace, r.trace]; simp
    · rw [calls_append, r.calls, r'.calls]
    · have := r'.fair; rw [r.time] at this; exact r.fair.append this
    · intro e' rest he
      cases evs with
      | nil =>
        rw [r.head rfl]
        simp only [List.nil_append, List.cons.injEq] at he
        exact ⟨seg', by simp [he.1]⟩
      | cons e'' evs' =>
        obtain ⟨rest', hr⟩ := r.first e'' evs' rfl
        simp only [List.cons_append, List.cons.injEq] at he
        exact ⟨rest' ++ e :: seg', by rw [hr, ← he.1]; rfl⟩
    · intro hns h
      refine r'.snap (fun t ht => hns t ?_) (r.snap (fun t ht => hns t ?_) h)
      · exact List.mem_append_right _ ht
      · exact List.mem_append_left _ ht

/-! ## The phases -/

theorem fold_adv {α : Type} (W : World σ) (ev : ℤ → α → Ev) (hc : ∀ t x, isCall (ev t x) = true)
    (ht : ∀ t x, time (ev t x) = t) (l : List α) : ∀ (s : Sim σ),
    Adv W s (l.foldl (fun s x => s.fire W (ev s.t.time x)) s) (l.map (ev s.t.time)) := by
  induction l with
  | nil => intro s; exact Adv.nil s
  | cons x l ih =>
    intro s
    have h1 : Adv W s (s.fire W (ev s.t.time x)) [ev s.t.time x] := by
      simpa using (Adv.nil (W := W) s).snoc (hc _ x) (ht _ x)
    obtain ⟨_, r⟩ := h1.res
    have h2 := ih (s.fire W (ev s.t.time x))
    rw [r.time] at h2
    simpa using h1.trans h2

theorem pyLoop_adv {W : World σ} {ev : ℤ → ℕ → Ev} (hc : ∀ t x, isCall (ev t x) = true)
    (ht : ∀ t x, time (ev t x) = t) {orig : List ℕ} : ∀ {l : List ℕ} {s s' : Sim σ},
    pyLoop W ev orig l s = some s' → Adv W s s' (l.map (ev s.t.time)) := by
  intro l
  induction l with
  | nil => intro s s' h; simp only [pyLoop, Option.some.injEq] at h; subst h; exact Adv.nil s
  | cons x l ih =>
    intro s s' h
    have h1 : Adv W s (s.fire W (ev s.t.time x)) [ev s.t.time x] := by
      simpa using (Adv.nil (W := W) s).snoc (hc _ x) (ht _ x)
    obtain ⟨_, r⟩ := h1.res
    simp only [pyLoop] at h
    split_ifs at h with hp
    have h2 := ih h
    rw [r.time] at h2
    simpa using h1.trans h2

theorem Quiet.of_append {a b : List Ev} (h : Quiet (a ++ b)) : Quiet a ∧ Quiet b :=
  ⟨fun t x ok => ⟨fun hm => (h t x ok).1 (List.mem_append_left _ hm),
      fun hm => (h t x ok).2 (List.mem_append_left _ hm)⟩,
    fun t x ok => ⟨fun hm => (h t x ok).1 (List.mem_append_right _ hm),
      fun hm => (h t x ok).2 (List.mem_append_right _ hm)⟩⟩

theorem listeners_quiet {a b : List Ev} (h : Quiet b) : listeners (a ++ b) = listeners a := by
  unfold listeners
  rw [List.foldl_append]
  generalize a.foldl listenStep [] = l
  induction b with
  | nil => rfl
  | cons e b ih =>
    have hb : Quiet b := (Quiet.of_append (a := [e]) h).2
    rw [List.foldl_cons]
    have : listenStep l e = l := by
      unfold listenStep
      split
      · rename_i t a ok; exact absurd List.mem_cons_self (h t a ok).1
      · rename_i t a ok; exact absurd List.mem_cons_self (h t a ok).2
      · rfl
    rw [this]; exact ih hb

theorem cppLoop_adv {W : World σ} {ev : ℤ → ℕ → Ev} (hc : ∀ t x, isCall (ev t x) = true)
    (ht : ∀ t x, time (ev t x) = t) : ∀ {fuel i : ℕ} {s s' : Sim σ},
    cppLoop W ev fuel i s = some s' → ∃ l, Adv W s s' (l.map (ev s.t.time)) ∧
      ∀ seg, s'.trace = s.trace ++ seg → Quiet seg → Inv W s → l = s.t.cpp.drop i := by
  intro fuel
  induction fuel with
  | zero => intro i s s' h; simp [cppLoop] at h
  | succ fuel ih =>
    intro i s s' h
    simp only [cppLoop] at h
    cases hi : s.t.cpp[i]? with
    | none =>
      rw [hi] at h
      simp only [Option.some.injEq] at h
      subst h
      refine ⟨[], Adv.nil s, fun _ _ _ _ => ?_⟩
      rw [List.getElem?_eq_none_iff] at hi
      exact (List.drop_eq_nil_of_le hi).symm
    | some a =>
      rw [hi] at h
      have h1 : Adv W s (s.fire W (ev s.t.time a)) [ev s.t.time a] := by
        simpa using (Adv.nil (W := W) s).snoc (hc _ a) (ht _ a)
      obtain ⟨sg, r⟩ := h1.res
      obtain ⟨l, h2, h3⟩ := ih h
      obtain ⟨sg', r'⟩ := h2.res
      rw [r.time] at h2
      refine ⟨a :: l, by simpa using h1.trans h2, ?_⟩
      intro seg hs hq hinv
      have hseg : seg = sg ++ sg' := by
        have := r'.trace
        rw [r.trace, hs, List.append_assoc] at this
        exact List.append_cancel_left this
      subst hseg
      obtain ⟨q1, q2⟩ := Quiet.of_append hq
      have hcpp : (s.fire W (ev s.t.time a)).t.cpp = s.t.cpp := by
        rw [(r.inv hinv).cpp, hinv.cpp, r.trace, listeners_quiet q1]
      rw [h3 sg' r'.trace q2 (r.inv hinv), hcpp]
      obtain ⟨hlt, hget⟩ := List.getElem?_eq_some_iff.1 hi
      rw [← hget, List.drop_eq_getElem_cons hlt]

theorem doListeners_adv {W : World σ} {ev : ℤ → ℕ → Ev} (hc : ∀ t x, isCall (ev t x) = true)
    (ht : ∀ t x, time (ev t x) = t) {fuel : ℕ} {s s' : Sim σ}
    (h : doListeners W ev fuel s = some s') : ∃ l, Adv W s s' (l.map (ev s.t.time)) ∧
      ∀ seg, s'.trace = s.trace ++ seg → Quiet seg → Inv W s →
        l = (listeners s.trace).filter W.shim ++ (listeners s.trace).filter fun a => !W.shim a := by
  unfold doListeners at h
  cases hp : pyLoop W ev s.t.py s.t.py s with
  | none => rw [hp] at h; cases h
  | some s1 =>
    rw [hp] at h
    have h1 := pyLoop_adv hc ht hp
    obtain ⟨sg, r⟩ := h1.res
    obtain ⟨l, h2, h3⟩ := cppLoop_adv hc ht h
    obtain ⟨sg', r'⟩ := h2.res
    rw [r.time] at h2
    refine ⟨s.t.py ++ l, by simpa using h1.trans h2, ?_⟩
    intro seg hs hq hinv
    have hseg : seg = sg ++ sg' := by
      have := r'.trace
      rw [r.trace, hs, List.append_assoc] at this
      exact List.append_cancel_left this
    subst hseg
    obtain ⟨q1, q2⟩ := Quiet.of_append hq
    rw [h3 sg' r'.trace q2 (r.inv hinv), (r.inv hinv).cpp, r.trace, listeners_quiet q1, hinv.py,
      List.drop_zero]

theorem find_next {pre post : List ℕ} {a : ℕ} (h : (pre ++ a :: post).Pairwise (· < ·)) :
    (pre ++ a :: post).find? (a < ·) = post.head? := by
  rw [List.pairwise_append, List.pairwise_cons] at h
  obtain ⟨_, ⟨h2, _⟩, h3⟩ := h
  rw [List.find?_append]
  have : pre.find? (a < ·) = none := by
    rw [List.find?_eq_none]
    intro x hx
    have := h3 x hx a List.mem_cons_self
    simp; omega
  rw [this, Option.none_or, List.find?_cons]
  simp only [lt_self_iff_false, decide_false]
  cases post with
  | nil => rfl
  | cons b post =>
    have := h2 b List.mem_cons_self
    simp [this]

theorem decisionLoop_adv {W : World σ} : ∀ {fuel : ℕ} {o : Option ℕ} {s s' : Sim σ},
    decisionLoop W fuel o s = some s' → ∃ l, Adv W s s' (l.map (Ev.decision s.t.time)) ∧
      ∀ seg, s'.trace = s.trace ++ seg → Quiet seg → Inv W s →
        ∀ pre post, s.t.tickers = pre ++ post → o = post.head? → l = post := by
  intro fuel
  induction fuel with
  | zero =>
    intro o s s' h
    cases o with
    | some a => simp [decisionLoop] at h
    | none =>
      simp only [decisionLoop, Option.some.injEq] at h
      subst h
      refine ⟨[], Adv.nil s, ?_⟩
      intro _ _ _ _ pre post _ ho
      cases post with
      | nil => rfl
      | cons _ _ => simp at ho
  | succ fuel ih =>
    intro o s s' h
    cases o with
    | none =>
      simp only [decisionLoop, Option.some.injEq] at h
      subst h
      refine ⟨[], Adv.nil s, ?_⟩
      intro _ _ _ _ pre post _ ho
      cases post with
      | nil => rfl
      | cons _ _ => simp at ho
    | some a =>
      simp only [decisionLoop] at h
      split_ifs at h with hm
      have h1 : Adv W s (s.fire W (.decision s.t.time a)) [.decision s.t.time a] := by
        simpa using (Adv.nil (W := W) s).snoc (e := .decision s.t.time a) rfl rfl
      obtain ⟨sg, r⟩ := h1.res
      obtain ⟨l, h2, h3⟩ := ih h
      obtain ⟨sg', r'⟩ := h2.res
      rw [r.time] at h2
      refine ⟨a :: l, by simpa using h1.trans h2, ?_⟩
      intro seg hs hq hinv pre post hpp ho
      have hseg : seg = sg ++ sg' := by
        have := r'.trace
        rw [r.trace, hs, List.append_assoc] at this
        exact List.append_cancel_left this
      subst hseg
      obtain ⟨q1, q2⟩ := Quiet.of_append hq
      have htk : (s.fire W (.decision s.t.time a)).t.tickers = s.t.tickers := by
        have i' := r.inv hinv
        have hmem : ∀ x, x ∈ (s.fire W (.decision s.t.time a)).t.tickers ↔ x ∈ s.t.tickers := by
          intro x
          rw [i'.mem, hinv.mem, r.trace, listeners_quiet q1]
        have hp := (List.perm_ext_iff_of_nodup (i'.tick.imp fun h => ne_of_lt h)
          (hinv.tick.imp fun h => ne_of_lt h)).2 hmem
        exact hp.eq_of_pairwise (fun x y _ _ h1 h2 => absurd h1 (lt_asymm h2)) i'.tick hinv.tick
      cases post with
      | nil => simp at ho
      | cons b post =>
        simp only [List.head?_cons, Option.some.injEq] at ho
        subst ho
        have hsorted := hinv.tick
        rw [hpp] at hsorted
        have := h3 sg' r'.trace q2 (r.inv hinv) (pre ++ [a]) post (by rw [htk, hpp]; simp)
          (by rw [htk, hpp]; exact find_next hsorted)
        rw [this]

theorem doDecision_adv {W : World σ} {fuel : ℕ} {s s' : Sim σ} (h : doDecision W fuel s = some s') :
    ∃ l, Adv W s s' (l.map (Ev.decision s.t.time)) ∧
      ∀ seg, s'.trace = s.trace ++ seg → Quiet seg → Inv W s → l = s.t.tickers := by
  obtain ⟨l, h1, h2⟩ := decisionLoop_adv h
  exact ⟨l, h1, fun seg a b c => h2 seg a b c [] s.t.tickers rfl rfl⟩

/-! ## A step -/

theorem fair_sched {T t : ℤ} {seg : List Ev} (h : Fair T seg) (ht : t ≤ T) : schedFor seg t = [] := by
  unfold schedFor
  rw [List.filterMap_eq_nil_iff]
  intro e he
  split
  · rename_i now proto parent t'
    have h1 := h.1 _ he
    have h2 := h.2 _ _ _ he
    simp only [time] at h1
    simp only [accepts] at h2
    have h3 := of_decide_eq_true h2.symm
    rw [if_neg]
    split_ifs
    · omega
    · rename_i hne; rcases h3 with h3 | h3
      · exact absurd h3 hne
      · omega
  · rfl

/-- A step of the simulation at time `T` within a trace. -/
structure StepAt (W : World σ) (T : ℤ) (tr pre A B C post : List Ev) (ticks tocks decs : List ℕ) :
    Prop where
  split : tr = pre ++ (A ++ B ++ C) ++ post
  preCalls : ∀ e ∈ calls pre, time e < T
  preTime : ∀ e ∈ pre, time e ≤ T
  postTime : ∀ e ∈ post, T < time e
  fair : Fair T (A ++ B ++ C)
  callsA : calls A = (if requested pre then [.snap T] else []) ++
    (schedFor pre T).map fun x => .build T x.1 x.2
  callsB : calls B = ticks.map (.tick T) ++ [.matl T, .prod T] ++ tocks.map (.tock T) ++
    decs.map (.decision T)
  callsC : calls C = (pending (pre ++ A ++ B) T).map (.decom T) ++ [.loop T]
  firstC : ∃ e C', C = e :: C' ∧ isCall e = true ∧ time e = T ∧ 8 ≤ phase e
  quiet : Quiet B →
    (ticks = (listeners (pre ++ A)).filter W.shim ++
      (listeners (pre ++ A)).filter fun a => !W.shim a) ∧
    tocks = ticks ∧ decs.Pairwise (· < ·) ∧ ∀ a, a ∈ decs ↔ a ∈ listeners (pre ++ A)

theorem snapshot_res {W : World σ} {s : Sim σ} (hi : Inv W s)
    (hs : s.t.wantSnapshot = requested s.trace) : ∃ seg,
    (doSnapshot W s).trace = s.trace ++ seg ∧
    calls seg = (if requested s.trace then [.snap s.t.time] else []) ∧
    (doSnapshot W s).t.time = s.t.time ∧ (doSnapshot W s).t.dur = s.t.dur ∧ Fair s.t.time seg ∧
    Inv W (doSnapshot W s) ∧ (doSnapshot W s).t.wantSnapshot = requested (doSnapshot W s).trace := by
  unfold doSnapshot
  by_cases h : s.t.wantSnapshot = true
  · rw [if_pos h]
    set s1 : Sim σ := { s with t := { s.t with wantSnapshot := false } } with hs1
    have hi1 : Inv W s1 := ⟨hi.builds, hi.keys, hi.decoms, hi.py, hi.cpp, hi.tick, hi.mem, hi.kill⟩
    obtain ⟨seg, r⟩ := fire_res (W := W) (s := s1) (e := .snap s.t.time) rfl rfl
    obtain ⟨_, _, _, h5, _⟩ := calls_fold W (W.act s1.w s1.t (.snap s.t.time)).2
      { s1 with w := (W.act s1.w s1.t (.snap s.t.time)).1, trace := s1.trace ++ [.snap s.t.time] }
    refine ⟨.snap s.t.time :: seg, r.trace, ?_, r.time, r.dur, r.fair, r.inv hi1, h5 ?_⟩
    · rw [r.calls, ← hs, h]; rfl
    · simp [requested, hs1]
  · rw [if_neg h]
    refine ⟨[], by simp, ?_, rfl, rfl, by simp [Fair], hi, hs⟩
    rw [← hs]; simp [h]; rfl

theorem phases_res {W : World σ} {fuel : ℕ} {s s' : Sim σ} (h : phases W fuel s = some s')
    (hi : Inv W s) (hs : s.t.wantSnapshot = requested s.trace)
    (hpre : ∀ e ∈ calls s.trace, time e < s.t.time) (hpret : ∀ e ∈ s.trace, time e ≤ s.t.time) :
    s'.t.time = s.t.time ∧ s'.t.dur = s.t.dur ∧ Inv W s' ∧
    s'.t.wantSnapshot = requested s'.trace ∧
    ∃ A B C ticks tocks decs, StepAt W s.t.time s'.trace s.trace A B C [] ticks tocks decs := by
  unfold phases at h
  obtain ⟨sg0, a1, a2, a3, a4, a5, a6, a7⟩ := snapshot_res hi hs
  set s0 := doSnapshot W s with hs0
  have hb : Adv W s0 (doBuild W s0) _ :=
    fold_adv W (fun t (x : String × Option ℕ) => .build t x.1 x.2) (fun _ _ => rfl) (fun _ _ => rfl)
      (s0.t.builds s0.t.time) s0
  obtain ⟨sg1, r1⟩ := hb.res
  have i1 := r1.inv a6
  cases ht : doListeners W .tick fuel (doBuild W s0) with
  | none => rw [ht] at h; cases h
  | some s1 =>
    simp only [ht] at h
    obtain ⟨ticks, ad2, q2⟩ := doListeners_adv (fun _ _ => rfl) (fun _ _ => rfl) ht
    obtain ⟨sg2, r2⟩ := ad2.res
    have i2 := r2.inv i1
    have ad3 : Adv W s1 (doResEx W s1) [.matl s1.t.time, .prod s1.t.time] := by
      have b1 : Adv W s1 (s1.fire W (.matl s1.t.time)) [.matl s1.t.time] := by
        simpa using (Adv.nil (W := W) s1).snoc (e := .matl s1.t.time) rfl rfl
      obtain ⟨_, rr⟩ := b1.res
      have b2 := b1.snoc (e := .prod (s1.fire W (.matl s1.t.time)).t.time) rfl rfl
      rw [rr.time] at b2
      unfold doResEx
      rw [show (let s1_1 := s1.fire W (.matl s1.t.time); s1_1.fire W (.prod s1_1.t.time)) =
        (s1.fire W (.matl s1.t.time)).fire W (.prod s1.t.time) by
          show (s1.fire W (.matl s1.t.time)).fire W (.prod _) = _
          rw [rr.time]]
      exact b2
    obtain ⟨sg3, r3⟩ := ad3.res
    have i3 := r3.inv i2
    cases hk : doListeners W .tock fuel (doResEx W s1) with
    | none => simp only [hk] at h; cases h
    | some s2 =>
      simp only [hk] at h
      obtain ⟨tocks, ad4, q4⟩ := doListeners_adv (fun _ _ => rfl) (fun _ _ => rfl) hk
      obtain ⟨sg4, r4⟩ := ad4.res
      have i4 := r4.inv i3
      cases hd : doDecision W fuel s2 with
      | none => simp only [hd] at h; cases h
      | some s3 =>
        simp only [hd] at h
        obtain ⟨decs, ad5, q5⟩ := doDecision_adv hd
        obtain ⟨sg5, r5⟩ := ad5.res
        have i5 := r5.inv i4
        have ad6 : Adv W s3 (doDecom W s3) _ :=
          fold_adv W (fun t (x : ℕ) => .decom t x) (fun _ _ => rfl) (fun _ _ => rfl)
            (qget s3.t.decoms s3.t.time) s3
        obtain ⟨_, r6'⟩ := ad6.res
        have ad7 := ad6.snoc (e := .loop (doDecom W s3).t.time) rfl rfl
        obtain ⟨sg6, r6⟩ := ad7.res
        have hsome : (doDecom W s3).fire W (.loop (doDecom W s3).t.time) = s' := by
          simpa using h
        rw [hsome] at r6
        have i6 := r6.inv i5
        -- times
        have T0 : s0.t.time = s.t.time := a3
        have T1 : (doBuild W s0).t.time = s.t.time := r1.time.trans T0
        have T2 : s1.t.time = s.t.time := r2.time.trans T1
        have T3 : (doResEx W s1).t.time = s.t.time := r3.time.trans T2
        have T4 : s2.t.time = s.t.time := r4.time.trans T3
        have T5 : s3.t.time = s.t.time := r5.time.trans T4
        have T6 : (doDecom W s3).t.time = s.t.time := r6'.time.trans T5
        -- snapshots
        have n1 : (doBuild W s0).t.wantSnapshot = requested (doBuild W s0).trace :=
          r1.snap (by intro t; simp) a7
        have n2 := r2.snap (by intro t; simp) n1
        have n3 := r3.snap (by intro t; simp) n2
        have n4 := r4.snap (by intro t; simp) n3
        have n5 := r5.snap (by intro t; simp) n4
        have n6 := r6.snap (by intro t; simp) n5
        have f1 := r1.fair; rw [T0] at f1
        have f2 := r2.fair; rw [T1] at f2
        have f3 := r3.fair; rw [T2] at f3
        have f4 := r4.fair; rw [T3] at f4
        have f5 := r5.fair; rw [T4] at f5
        have f6 := r6.fair; rw [T5] at f6
        have eA : (doBuild W s0).trace = s.trace ++ (sg0 ++ sg1) := by rw [r1.trace, a1]; simp
        have eB : s3.trace = s.trace ++ (sg0 ++ sg1) ++ (sg2 ++ sg3 ++ sg4 ++ sg5) := by
          rw [r5.trace, r4.trace, r3.trace, r2.trace, eA]; simp
        refine ⟨r6.time.trans T5, ?_, i6, n6, sg0 ++ sg1, sg2 ++ sg3 ++ sg4 ++ sg5, sg6, ticks, tocks,
          decs, ?_⟩
        · exact r6.dur.trans (r5.dur.trans (r4.dur.trans (r3.dur.trans (r2.dur.trans
            (r1.dur.trans a4)))))
        · refine ⟨?_, hpre, hpret, by simp, ?_, ?_, ?_, ?_, ?_, ?_⟩
          · rw [r6.trace, eB]; simp
          · exact (((a5.append f1).append (((f2.append f3).append f4).append f5))).append f6
          · rw [calls_append, a2, r1.calls, a6.builds, a1, schedFor_append, T0,
              fair_sched a5 (le_refl _), List.append_nil]
          · rw [calls_append, calls_append, calls_append, r2.calls, r3.calls, r4.calls, r5.calls, T1,
              T2, T3, T4]
          · rw [r6.calls, i5.decoms, T5, T6, eB]
          · cases hp : qget s3.t.decoms s3.t.time with
            | nil =>
              rw [hp] at r6
              obtain ⟨rest, hr⟩ := r6.first (.loop (doDecom W s3).t.time) [] rfl
              exact ⟨_, rest, hr, rfl, T6, by simp [phase]⟩
            | cons x l =>
              rw [hp] at r6
              obtain ⟨rest, hr⟩ := r6.first (.decom s3.t.time x) _ rfl
              exact ⟨_, rest, hr, rfl, T5, by simp [phase]⟩
          · intro hq
            obtain ⟨hq123, hq5⟩ := Quiet.of_append hq
            obtain ⟨hq12, hq4⟩ := Quiet.of_append hq123
            obtain ⟨hq2, hq3⟩ := Quiet.of_append hq12
            have l2 : listeners s1.trace = listeners (s.trace ++ (sg0 ++ sg1)) := by
              rw [r2.trace, listeners_quiet hq2, eA]
            have l3 : listeners (doResEx W s1).trace = listeners (s.trace ++ (sg0 ++ sg1)) := by
              rw [r3.trace, listeners_quiet hq3, l2]
            have l4 : listeners s2.trace = listeners (s.trace ++ (sg0 ++ sg1)) := by
              rw [r4.trace, listeners_quiet hq4, l3]
            have e2 := q2 sg2 r2.trace hq2 i1
            rw [eA] at e2
            have e4 := q4 sg4 r4.trace hq4 i3
            rw [l3] at e4
            have e5 := q5 sg5 r5.trace hq5 i4
            refine ⟨e2, by rw [e4, e2], by rw [e5]; exact i4.tick, ?_⟩
            intro a; rw [e5, i4.mem, l4]

/-! ## A run -/

/-- The order of calls. -/
def Before (a b : Ev) : Prop := time a < time b ∨ time a = time b ∧ phase a ≤ phase b

/-- What holds at the head of the loop. -/
structure Good (W : World σ) (t0 : ℤ) (s : Sim σ) : Prop where
  inv : Inv W s
  snap : s.t.wantSnapshot = requested s.trace
  le : t0 ≤ s.t.time
  callsLt : ∀ e ∈ calls s.trace, time e < s.t.time
  callsGe : ∀ e ∈ calls s.trace, t0 ≤ time e
  timesLe : ∀ e ∈ s.trace, time e ≤ s.t.time
  mono : s.trace.Pairwise fun a b => time a ≤ time b
  ord : (calls s.trace).Pairwise Before
  acc : ∀ now o ok, Ev.op now o ok ∈ s.trace → ok = accepts now o
  steps : ∀ T, t0 ≤ T → T < s.t.time →
    ∃ pre A B C post ticks tocks decs, StepAt W T s.trace pre A B C post ticks tocks decs
  finish : ∀ t b e, Ev.finish t b e ∉ s.trace

theorem StepAt.calls_eq {W : World σ} {T : ℤ} {tr pre A B C post : List Ev}
    {ticks tocks decs : List ℕ} (h : StepAt W T tr pre A B C post ticks tocks decs) :
    (calls (A ++ B ++ C)).Pairwise Before ∧ ∀ e ∈ calls (A ++ B ++ C), time e = T ∧ 1 ≤ phase e := by
  have hA : ∀ e ∈ calls A, time e = T ∧ 1 ≤ phase e ∧ phase e ≤ 2 := by
    intro e he
    rw [h.callsA, List.mem_append] at he
    rcases he with he | he
    · split_ifs at he
      · rw [List.mem_singleton] at he; subst he; simp [time, phase]
      · cases he
    · obtain ⟨x, _, rfl⟩ := List.mem_map.1 he; simp [time, phase]
  have hAp : (calls A).Pairwise Before := by
    rw [h.callsA, List.pairwise_append]
    refine ⟨?_, ?_, ?_⟩
    · split_ifs <;> simp
    · rw [List.pairwise_map]
      exact List.pairwise_of_forall (fun _ _ => Or.inr ⟨rfl, le_refl _⟩)
    · intro a ha b hb
      split_ifs at ha
      · rw [List.mem_singleton] at ha; subst ha
        obtain ⟨x, _, rfl⟩ := List.mem_map.1 hb
        exact Or.inr ⟨rfl, by simp [phase]⟩
      · cases ha
  have hmap : ∀ (ev : ℕ → Ev) (n : ℕ) (l : List ℕ), (∀ a, time (ev a) = T ∧ phase (ev a) = n) →
      (l.map ev).Pairwise Before := by
    intro ev n l hev
    rw [List.pairwise_map]
    exact List.pairwise_of_forall fun a b =>
      Or.inr ⟨(hev a).1.trans (hev b).1.symm, le_of_eq ((hev a).2.trans (hev b).2.symm)⟩
  have hB : ∀ e ∈ calls B, time e = T ∧ 3 ≤ phase e ∧ phase e ≤ 7 := by
    intro e he
    rw [h.callsB] at he
    simp only [List.mem_append, List.mem_map, List.mem_cons, List.not_mem_nil, or_false] at he
    rcases he with ((⟨x, _, rfl⟩ | rfl | rfl) | ⟨x, _, rfl⟩) | ⟨x, _, rfl⟩ <;> simp [time, phase]
  have hBp : (calls B).Pairwise Before := by
    rw [h.callsB]
    rw [List.pairwise_append, List.pairwise_append, List.pairwise_append]
    refine ⟨⟨⟨hmap _ 3 _ fun a => ⟨rfl, rfl⟩, ?_, ?_⟩, hmap _ 6 _ fun a => ⟨rfl, rfl⟩, ?_⟩,
      hmap _ 7 _ fun a => ⟨rfl, rfl⟩, ?_⟩
    · simp only [List.pairwise_cons, List.mem_singleton, List.not_mem_nil, List.Pairwise.nil]
      refine ⟨?_, by simp, trivial⟩
      rintro _ rfl; exact Or.inr ⟨rfl, by simp [phase]⟩
    · intro a ha b hb
      obtain ⟨x, _, rfl⟩ := List.mem_map.1 ha
      simp only [List.mem_cons, List.not_mem_nil, or_false] at hb
      rcases hb with rfl | rfl <;> exact Or.inr ⟨rfl, by simp [phase]⟩
    · intro a ha b hb
      obtain ⟨x, _, rfl⟩ := List.mem_map.1 hb
      simp only [List.mem_append, List.mem_map, List.mem_cons, List.not_mem_nil, or_false] at ha
      rcases ha with ⟨y, _, rfl⟩ | rfl | rfl <;> exact Or.inr ⟨rfl, by simp [phase]⟩
    · intro a ha b hb
      obtain ⟨x, _, rfl⟩ := List.mem_map.1 hb
      simp only [List.mem_append, List.mem_map, List.mem_cons, List.not_mem_nil, or_false] at ha
      rcases ha with (⟨y, _, rfl⟩ | rfl | rfl) | ⟨y, _, rfl⟩ <;> exact Or.inr ⟨rfl, by simp [phase]⟩
  have hC : ∀ e ∈ calls C, time e = T ∧ 8 ≤ phase e := by
    intro e he
    rw [h.callsC, List.mem_append, List.mem_singleton] at he
    rcases he with he | rfl
    · obtain ⟨x, _, rfl⟩ := List.mem_map.1 he; simp [time, phase]
    · simp [time, phase]
  have hCp : (calls C).Pairwise Before := by
    rw [h.callsC, List.pairwise_append]
    refine ⟨hmap _ 8 _ fun a => ⟨rfl, rfl⟩, by simp, ?_⟩
    intro a ha b hb
    obtain ⟨x, _, rfl⟩ := List.mem_map.1 ha
    rw [List.mem_singleton] at hb; subst hb
    exact Or.inr ⟨rfl, by simp [phase]⟩
  rw [calls_append, calls_append]
  refine ⟨?_, ?_⟩
  · rw [List.pairwise_append, List.pairwise_append]
    refine ⟨⟨hAp, hBp, ?_⟩, hCp, ?_⟩
    · intro a ha b hb
      obtain ⟨a1, _, a3⟩ := hA a ha
      obtain ⟨b1, b2, _⟩ := hB b hb
      exact Or.inr ⟨a1.trans b1.symm, by omega⟩
    · intro a ha b hb
      obtain ⟨b1, b2⟩ := hC b hb
      rcases List.mem_append.1 ha with ha | ha
      · obtain ⟨a1, _, a3⟩ := hA a ha
        exact Or.inr ⟨a1.trans b1.symm, by omega⟩
      · obtain ⟨a1, _, a3⟩ := hB a ha
        exact Or.inr ⟨a1.trans b1.symm, by omega⟩
  · intro e he
    simp only [List.mem_append] at he
    rcases he with (he | he) | he
    · exact ⟨(hA e he).1, (hA e he).2.1⟩
    · have := hB e he; exact ⟨this.1, by omega⟩
    · have := hC e he; exact ⟨this.1, by omega⟩

theorem StepAt.extend {W : World σ} {T : ℤ} {tr pre A B C post : List Ev}
    {ticks tocks decs : List ℕ} (h : StepAt W T tr pre A B C post ticks tocks decs) {more : List Ev}
    (hm : ∀ e ∈ more, T < time e) :
    StepAt W T (tr ++ more) pre A B C (post ++ more) ticks tocks decs := by
  refine ⟨by rw [h.split]; simp, h.preCalls, h.preTime, ?_, h.fair, h.callsA, h.callsB, h.callsC,
    h.firstC, h.quiet⟩
  intro e he
  rcases List.mem_append.1 he with he | he
  · exact h.postTime e he
  · exact hm e he

theorem mem_calls {e : Ev} {tr : List Ev} : e ∈ calls tr ↔ e ∈ tr ∧ isCall e = true := by
  simp [calls]

theorem Good.step {W : World σ} {t0 : ℤ} {fuel : ℕ} {s s' : Sim σ} (g : Good W t0 s)
    (h : step W fuel s = some s') : Good W t0 s' ∧ s'.t.time = s.t.time + 1 ∧ s'.t.dur = s.t.dur ∧
      ∃ seg, s'.trace = s.trace ++ seg ∧ ∀ e ∈ seg, time e = s.t.time := by
  unfold Timing.step at h
  cases hp : phases W fuel s with
  | none => rw [hp] at h; cases h
  | some s1 =>
    rw [hp] at h
    simp only [Option.map_some, Option.some.injEq] at h
    obtain ⟨h1, h2, h3, h4, A, B, C, ticks, tocks, decs, st⟩ :=
      phases_res hp g.inv g.snap g.callsLt g.timesLe
    have htr : s'.trace = s.trace ++ (A ++ B ++ C) := by
      rw [← h]; simpa using st.split
    have htime : s'.t.time = s.t.time + 1 := by rw [← h]; simp [h1]
    obtain ⟨hord, hcalls⟩ := st.calls_eq
    refine ⟨⟨?_, ?_, ?_, ?_, ?_, ?_, ?_, ?_, ?_, ?_, ?_⟩, htime, by rw [← h]; exact h2, _, htr,
      st.fair.1⟩
    · rw [← h]
      exact ⟨h3.builds, h3.keys, h3.decoms, h3.py, h3.cpp, h3.tick, h3.mem, h3.kill⟩
    · rw [← h]; exact h4
    · have := g.le; omega
    · intro e he
      rw [htr, calls_append, List.mem_append] at he
      rcases he with he | he
      · have := g.callsLt e he; omega
      · have := (hcalls e he).1; omega
    · intro e he
      rw [htr, calls_append, List.mem_append] at he
      rcases he with he | he
      · exact g.callsGe e he
      · have := (hcalls e he).1; have := g.le; omega
    · intro e he
      rw [htr, List.mem_append] at he
      rcases he with he | he
      · have := g.timesLe e he; omega
      · have := st.fair.1 e he; omega
    · rw [htr, List.pairwise_append]
      refine ⟨g.mono, ?_, ?_⟩
      · rw [List.pairwise_iff_forall_sublist]
        intro a b hab
        have ha := st.fair.1 a (hab.subset (by simp))
        have hb := st.fair.1 b (hab.subset (by simp))
        omega
      · intro a ha b hb
        have := g.timesLe a ha
        have := st.fair.1 b hb
        omega
    · rw [htr, calls_append, List.pairwise_append]
      refine ⟨g.ord, hord, ?_⟩
      intro a ha b hb
      have := g.callsLt a ha
      have := (hcalls b hb).1
      exact Or.inl (by omega)
    · intro now o ok hm
      rw [htr, List.mem_append] at hm
      rcases hm with hm | hm
      · exact g.acc now o ok hm
      · exact st.fair.2 now o ok hm
    · intro T hT hT'
      rw [htime] at hT'
      by_cases hTs : T < s.t.time
      · obtain ⟨pre, A', B', C', post, l1, l2, l3, hst⟩ := g.steps T hT hTs
        refine ⟨pre, A', B', C', post ++ (A ++ B ++ C), l1, l2, l3, ?_⟩
        rw [htr]
        apply hst.extend
        intro e he
        have := st.fair.1 e he
        omega
      · have : T = s.t.time := by omega
        subst this
        have := st
        rw [show s1.trace = s'.trace by rw [← h]] at this
        exact ⟨_, _, _, _, _, _, _, _, this⟩
    · intro t b e he
      rw [htr, List.mem_append] at he
      rcases he with he | he
      · exact g.finish t b e he
      · have := (hcalls (.finish t b e) (mem_calls.2 ⟨he, rfl⟩)).2
        simp [phase] at this

theorem Good.loop {W : World σ} {t0 : ℤ} {fuel : ℕ} : ∀ {n : ℕ} {s s' : Sim σ}, Good W t0 s →
    runLoop W fuel n s = some s' → Good W t0 s' ∧ s'.t.dur = s.t.dur ∧ s.t.time ≤ s'.t.time ∧
      s'.t.time ≤ s.t.time + n ∧
      (s'.t.time = s.t.time + n ∨ s.t.time < s'.t.time ∧ s'.t.wantKill = true) ∧
      (∃ more, s'.trace = s.trace ++ more) ∧
      (∀ now ok, Ev.op now .kill ok ∈ s'.trace →
        Ev.op now .kill ok ∈ s.trace ∨ now + 1 = s'.t.time) ∧
      (0 < n → killed s.trace → s'.t.time = s.t.time + 1) := by
  intro n
  induction n with
  | zero =>
    intro s s' g h
    simp only [runLoop, Option.some.injEq] at h
    subst h
    exact ⟨g, rfl, le_refl _, by simp, Or.inl (by simp), ⟨[], by simp⟩, fun _ _ h => Or.inl h,
      fun h => absurd h (lt_irrefl _)⟩
  | succ n ih =>
    intro s s' g h
    simp only [runLoop] at h
    cases hs : Timing.step W fuel s with
    | none => rw [hs] at h; cases h
    | some s1 =>
      rw [hs] at h
      obtain ⟨g1, t1, d1, seg, tr1, ts⟩ := g.step hs
      by_cases hk : s1.t.wantKill = true
      · simp only [if_pos hk, Option.some.injEq] at h
        subst h
        refine ⟨g1, d1, by omega, by push_cast; omega, Or.inr ⟨by omega, hk⟩, ⟨seg, tr1⟩, ?_,
          fun _ _ => t1⟩
        intro now ok hm
        rw [tr1, List.mem_append] at hm
        rcases hm with hm | hm
        · exact Or.inl hm
        · have := ts _ hm
          simp only [time] at this
          exact Or.inr (by omega)
      · simp only [if_neg hk] at h
        have hnk : ¬ killed s1.trace := fun h' => hk (g1.inv.kill.2 h')
        obtain ⟨j1, j2, j3, j4, j5, ⟨more, j6⟩, j7, _⟩ := ih g1 h
        refine ⟨j1, j2.trans d1, by omega, by push_cast; omega, ?_, ⟨seg ++ more, ?_⟩, ?_, ?_⟩
        · rcases j5 with j5 | j5
          · left; push_cast; omega
          · right; exact ⟨by omega, j5.2⟩
        · rw [j6, tr1]; simp
        · intro now ok hm
          rcases j7 now ok hm with hm' | hm'
          · exact absurd ⟨now, ok, hm'⟩ hnk
          · exact Or.inr hm'
        · rintro _ ⟨now, ok, hm⟩
          exact absurd ⟨now, ok, by rw [tr1]; exact List.mem_append_left _ hm⟩ hnk

theorem Good.start (W : World σ) (w : σ) (t0 dur : ℤ) (setup : List Op) :
    Good W t0 (start W w t0 dur setup) ∧ (start W w t0 dur setup).t.time = t0 ∧
      (start W w t0 dur setup).t.dur = dur := by
  obtain ⟨h1, h2, h3, h4, seg, h5, h6, h7⟩ := calls_fold W setup
    (⟨⟨t0, dur, false, false, [], [], [], fun _ => [], []⟩, w, []⟩ : Sim σ)
  have hi : Inv W (⟨⟨t0, dur, false, false, [], [], [], fun _ => [], []⟩, w, []⟩ : Sim σ) := by
    constructor <;> simp [schedFor, pending, agenda, listeners, killed, qget]
  have htr : (Timing.start W w t0 dur setup).trace = seg := by
    rw [Timing.start, h5]; simp
  have htm : (Timing.start W w t0 dur setup).t.time = t0 := h1
  refine ⟨⟨h3 hi, h4 rfl, by rw [htm], ?_, ?_, ?_, ?_, ?_, ?_, ?_, ?_⟩, htm, h2⟩
  · rw [htr, h6]; simp
  · rw [htr, h6]; simp
  · rw [htr, htm]; intro e he; exact le_of_eq (h7.1 e he)
  · rw [htr, List.pairwise_iff_forall_sublist]
    intro a b hab
    have ha := h7.1 a (hab.subset (by simp))
    have hb := h7.1 b (hab.subset (by simp))
    omega
  · rw [htr, h6]; simp
  · rw [htr]; exact h7.2
  · intro T hT hT'; rw [htm] at hT'; omega
  · rw [htr]
    intro t b e he
    have : Ev.finish t b e ∈ calls seg := mem_calls.2 ⟨he, rfl⟩
    rw [h6] at this; cases this

/-- The end of a run. -/
theorem finish_res {W : World σ} {t0 : ℤ} {s : Sim σ} (g : Good W t0 s) : ∃ tail,
    (finishRun W s).trace = s.trace ++
      .finish s.t.time s.t.wantKill (s.t.time - 1) :: .snap s.t.time :: tail ∧
    calls tail = [] ∧ Fair s.t.time tail ∧ (finishRun W s).t.time = s.t.time := by
  have e : Ev.snap s.t.time = Ev.snap s.t.time := rfl
  set s1 : Sim σ := { s with trace := s.trace ++ [.finish s.t.time s.t.wantKill (s.t.time - 1)] }
    with hs1
  obtain ⟨h1, h2, h3, h4, seg, h5, h6, h7⟩ := calls_fold W (W.act s1.w s1.t (.snap s.t.time)).2
    { s1 with w := (W.act s1.w s1.t (.snap s.t.time)).1, trace := s1.trace ++ [.snap s.t.time] }
  refine ⟨seg, ?_, h6, h7, h1⟩
  show ((W.act s1.w s1.t (.snap s.t.time)).2.foldl (Sim.call W) _).trace = _
  rw [h5]
  simp [hs1]

end Cyclus.Timing
