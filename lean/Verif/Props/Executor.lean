import Verif.Model.Executor
import Verif.Props.Translator
import Mathlib.Data.List.Nodup
import Mathlib.Data.List.Perm.Basic

/-!
# C18: trade execution
-/

namespace Cyclus.Dre

namespace Spec

/-- The responses of all suppliers, each with its supplier. -/
def answered (as : List Asked) : List (ℕ × Response) :=
  as.flatMap fun a => a.responses.map fun r => (a.supplier, r)

/-- What a recorded transaction says about a response. -/
def rowOf {σ : Type} (c : Ctx) (w : World σ) (st : σ) (x : ℕ × Response) : ℤ × ℤ × ℤ × String :=
  (c.manager x.1, c.manager (c.req x.2.1.request).requester, w.stateId st x.2.2,
    (c.req x.2.1.request).commod)

/-- The contents of a row apart from its id. -/
def contents (r : TRow) : ℤ × ℤ × ℤ × String := (r.sender, r.receiver, r.resource, r.commod)

/-- An iteration order: the elements in some order. -/
def IsOrder {α : Type} (ord : List α → List α) : Prop := ∀ l, (ord l).Perm l

end Spec

open Spec

theorem insertSet_mem {l : List ℕ} {x y : ℕ} : y ∈ insertSet l x ↔ y ∈ l ∨ y = x := by
  unfold insertSet
  split_ifs with h
  · constructor
    · exact Or.inl
    · rintro (h' | rfl) <;> assumption
  · simp

theorem insertSet_nodup {l : List ℕ} {x : ℕ} (h : l.Nodup) : (insertSet l x).Nodup := by
  unfold insertSet
  split_ifs with hx
  · exact h
  · rw [List.nodup_append']; exact ⟨h, by simp, by simpa [List.disjoint_singleton] using hx⟩

section
variable {σ : Type} {c : Ctx} {w : World σ} {eps : ℚ}

structure Grouped (c : Ctx) (x0 x : XCtx) (ts : List Trade) : Prop where
  by_ : ∀ s, x.bySupplier s = x0.bySupplier s ++ ts.filter fun t => (c.bid t.bid).bidder = s
  sup : ∀ s, s ∈ x.suppliers ↔ s ∈ x0.suppliers ∨ ∃ t ∈ ts, (c.bid t.bid).bidder = s
  req : ∀ s, s ∈ x.requesters ↔ s ∈ x0.requesters ∨ ∃ t ∈ ts, (c.req t.request).requester = s
  sn : x0.suppliers.Nodup → x.suppliers.Nodup
  rn : x0.requesters.Nodup → x.requesters.Nodup
  rest : x.byRequester = x0.byRequester ∧ x.pairs = x0.pairs ∧ x.all = x0.all

theorem group_fold (c : Ctx) (ts : List Trade) : ∀ x0, Grouped c x0 (ts.foldl (groupStep c) x0) ts := by
  induction ts with
  | nil => intro x0; constructor <;> simp
  | cons t ts ih =>
    intro x0
    have h := ih (groupStep c x0 t)
    rw [List.foldl_cons]
    refine ⟨?_, ?_, ?_, ?_, ?_, ?_⟩
    · intro s
      rw [h.by_ s]
      simp only [groupStep, Function.update_apply, List.filter_cons]
      by_cases hs : s = (c.bid t.bid).bidder
      · subst hs; simp
      · rw [if_neg hs, if_neg]
        simpa using fun h' => hs h'.symm
    · intro s
      rw [h.sup s]
      simp only [groupStep, insertSet_mem, List.mem_cons, exists_eq_or_imp]
      rw [or_assoc, eq_comm]
    · intro s
      rw [h.req s]
      simp only [groupStep, insertSet_mem, List.mem_cons, exists_eq_or_imp]
      rw [or_assoc, eq_comm]
    · exact fun hn => h.sn (insertSet_nodup hn)
    · exact fun hn => h.rn (insertSet_nodup hn)
    · exact h.rest

/-- The containers filled by `GetTradeResponses`, for the responses `L` so far. -/
structure Filed (c : Ctx) (L : List (ℕ × Response)) (x : XCtx) : Prop where
  by_ : ∀ q, x.byRequester q =
    (L.filter fun y => (c.req y.2.1.request).requester = q).map Prod.snd
  all : ∀ k, x.all k =
    (L.filter fun y => (y.1, (c.req y.2.1.request).requester) = k).map Prod.snd
  mem : ∀ k, k ∈ x.pairs ↔ ∃ y ∈ L, (y.1, (c.req y.2.1.request).requester) = k
  nodup : x.pairs.Nodup

theorem Filed.step {L : List (ℕ × Response)} {x : XCtx} (h : Filed c L x) (s : ℕ) (r : Response) :
    Filed c (L ++ [(s, r)]) (fileResponse c s x r) := by
  refine ⟨?_, ?_, ?_, ?_⟩
  · intro q
    simp only [fileResponse, Function.update_apply, List.filter_append, List.map_append]
    by_cases hq : q = (c.req r.1.request).requester
    · subst hq; simp [h.by_]
    · rw [if_neg hq, h.by_ q]
      have : ¬ (c.req r.1.request).requester = q := fun h' => hq h'.symm
      simp [this]
  · intro k
    simp only [fileResponse, Function.update_apply, List.filter_append, List.map_append]
    by_cases hq : k = (s, (c.req r.1.request).requester)
    · subst hq; simp [h.all]
    · rw [if_neg hq, h.all k]
      have : ¬ (s, (c.req r.1.request).requester) = k := fun h' => hq h'.symm
      simp [this]
  · intro k
    simp only [fileResponse, List.mem_append, List.mem_singleton, or_and_right, exists_or,
      exists_eq_left]
    rw [← h.mem k]
    split_ifs with hm
    · constructor
      · exact Or.inl
      · rintro (h' | rfl) <;> assumption
    · rw [List.mem_append, List.mem_singleton, @eq_comm _ k]
  · simp only [fileResponse]
    split_ifs with hm
    · exact h.nodup
    · rw [List.nodup_append']
      exact ⟨h.nodup, by simp, by simpa [List.disjoint_singleton] using hm⟩

theorem fileFold_rest (c : Ctx) (s : ℕ) (rs : List Response) : ∀ x,
    (rs.foldl (fileResponse c s) x).suppliers = x.suppliers ∧
    (rs.foldl (fileResponse c s) x).requesters = x.requesters ∧
    (rs.foldl (fileResponse c s) x).bySupplier = x.bySupplier := by
  induction rs with
  | nil => intro x; exact ⟨rfl, rfl, rfl⟩
  | cons r rs ih => intro x; exact ih (fileResponse c s x r)

theorem Filed.fold (rs : List Response) : ∀ {L : List (ℕ × Response)} {x : XCtx} (s : ℕ),
    Filed c L x → Filed c (L ++ rs.map fun r => (s, r)) (rs.foldl (fileResponse c s) x) := by
  induction rs with
  | nil => intro L x s h; simpa using h
  | cons r rs ih =>
    intro L x s h
    have := ih s (h.step s r)
    rw [List.append_assoc] at this
    exact this

theorem ask_fold (ss : List ℕ) : ∀ {st : σ} {x : XCtx} {as : List Asked}, Filed c (answered as) x →
    ∃ st' x' new, ss.foldl (askStep c w) (st, x, as) = (st', x', as ++ new) ∧
      Filed c (answered (as ++ new)) x' ∧ new.map Asked.supplier = ss ∧
      (∀ a ∈ new, a.trades = x.bySupplier a.supplier) ∧ x'.requesters = x.requesters := by
  induction ss with
  | nil =>
    intro st x as h
    exact ⟨st, x, [], by simp, by simpa using h, rfl, by simp, rfl⟩
  | cons s ss ih =>
    intro st x as h
    obtain ⟨e1, e2, e3⟩ := fileFold_rest c s (w.supply st s (x.bySupplier s)).2 x
    have hf := h.fold (w.supply st s (x.bySupplier s)).2 s
    have hL : answered as ++ (w.supply st s (x.bySupplier s)).2.map (fun r => (s, r)) =
        answered (as ++ [⟨s, x.bySupplier s, (w.supply st s (x.bySupplier s)).2⟩]) := by
      simp [answered]
    rw [hL] at hf
    obtain ⟨st', x', new, g1, g2, g3, g4, g5⟩ := ih (st := (w.supply st s (x.bySupplier s)).1) hf
    refine ⟨st', x', ⟨s, x.bySupplier s, (w.supply st s (x.bySupplier s)).2⟩ :: new, ?_, ?_, ?_, ?_,
      g5.trans e2⟩
    · rw [List.foldl_cons]
      unfold askStep
      rw [← List.append_cons] at g1
      exact g1
    · rw [← List.append_cons] at g2; exact g2
    · simp [g3]
    · intro a ha
      rcases List.mem_cons.1 ha with rfl | ha
      · rfl
      · rw [g4 a ha, e3]

theorem send_fold (x : XCtx) (qs : List ℕ) : ∀ (st : σ) (acc : List (ℕ × List Response)),
    (qs.foldl (sendStep w x) (st, acc)).2 = acc ++ qs.map fun q => (q, x.byRequester q) := by
  induction qs with
  | nil => intro st acc; simp
  | cons q qs ih => intro st acc; rw [List.foldl_cons, sendStep, ih]; simp

theorem record_fold (c : Ctx) (w : World σ) (eps : ℚ) (st : σ) (L : List ((ℕ × ℕ) × Response)) :
    ∀ (n : ℕ) (rows : List TRow), ∃ new,
      L.foldl (fun acc y => recordStep c w eps st y.1 acc y.2) (n, rows) =
        (n + new.length, rows ++ new) ∧
      new.map TRow.id = List.range' n new.length ∧
      new.map contents = (L.filter fun y => eps < w.qty st y.2.2).map fun y =>
        (c.manager y.1.1, c.manager y.1.2, w.stateId st y.2.2, (c.req y.2.1.request).commod) := by
  induction L with
  | nil => intro n rows; exact ⟨[], by simp⟩
  | cons y L ih =>
    intro n rows
    rw [List.foldl_cons]
    unfold recordStep
    by_cases hq : w.qty st y.2.2 > eps
    · rw [if_pos hq]
      obtain ⟨new, h1, h2, h3⟩ := ih (n + 1) (rows ++ [⟨n, c.manager y.1.1, c.manager y.1.2,
        w.stateId st y.2.2, (c.req y.2.1.request).commod⟩])
      refine ⟨⟨n, c.manager y.1.1, c.manager y.1.2, w.stateId st y.2.2,
        (c.req y.2.1.request).commod⟩ :: new, ?_, ?_, ?_⟩
      · have hn : n + 1 + new.length = n + (new.length + 1) := by omega
        rw [List.length_cons, ← hn, ← List.append_cons] at *
        exact h1
      · simp [h2, List.range'_succ]
      · have : eps < w.qty st y.2.2 := hq
        simp [h3, this, contents]
    · rw [if_neg hq]
      obtain ⟨new, h1, h2, h3⟩ := ih n rows
      refine ⟨new, h1, h2, ?_⟩
      have : ¬ eps < w.qty st y.2.2 := hq
      simp [h3, this]

theorem foldl_foldl {α β γ : Type} (f : γ → α × β → γ) (g : α → List β) (ks : List α) : ∀ x : γ,
    ks.foldl (fun acc k => (g k).foldl (fun acc b => f acc (k, b)) acc) x =
      (ks.flatMap fun k => (g k).map fun b => (k, b)).foldl f x := by
  induction ks with
  | nil => intro x; rfl
  | cons k ks ih =>
    intro x
    rw [List.foldl_cons, ih, List.flatMap_cons, List.foldl_append, List.foldl_map]

/-- Splitting a list by a key and putting the parts together again. -/
theorem split_perm {α β : Type} [DecidableEq β] (f : α → β) (L : List α) : ∀ {K : List β},
    K.Nodup → (K.flatMap fun k => L.filter fun x => f x = k).Perm (L.filter fun x => f x ∈ K) := by
  intro K
  induction K with
  | nil => intro _; simp
  | cons k K ih =>
    intro hn
    rw [List.nodup_cons] at hn
    rw [List.flatMap_cons]
    refine List.Perm.trans (List.Perm.append_left _ (ih hn.2)) ?_
    have h := List.filter_append_perm (fun x => decide (f x = k)) (L.filter fun x => f x ∈ k :: K)
    refine List.Perm.trans (List.Perm.of_eq ?_) h
    rw [List.filter_filter, List.filter_filter]
    congr 1
    · apply List.filter_congr
      intro x _
      by_cases hx : f x = k <;> simp [hx]
    · apply List.filter_congr
      intro x _
      by_cases hx : f x = k
      · simp [hx, hn.1]
      · simp [hx]

theorem split_perm_all {α β : Type} [DecidableEq β] {f : α → β} {L : List α} {K : List β}
    (hn : K.Nodup) (h : ∀ x ∈ L, f x ∈ K) : (K.flatMap fun k => L.filter fun x => f x = k).Perm L := by
  refine (split_perm f L hn).trans (List.Perm.of_eq ?_)
  rw [List.filter_eq_self]
  intro x hx
  rw [decide_eq_true_eq]; exact h x hx

/-- The facts about one call of `ExecuteTrades`. -/
theorem execute_spec {ord : List ℕ → List ℕ} {ordP : List (ℕ × ℕ) → List (ℕ × ℕ)}
    (ho : IsOrder ord) (hP : IsOrder ordP) (st : σ) (n : ℕ) (ts : List Trade) :
    let e := executeTrades c w eps ord ordP st n ts
    ((e.asked.map Asked.supplier).Nodup ∧
      (∀ s, s ∈ e.asked.map Asked.supplier ↔ ∃ t ∈ ts, (c.bid t.bid).bidder = s) ∧
      ∀ a ∈ e.asked, a.trades = ts.filter fun t => (c.bid t.bid).bidder = a.supplier) ∧
    ((e.accepted.map Prod.fst).Nodup ∧
      (∀ q, q ∈ e.accepted.map Prod.fst ↔ ∃ t ∈ ts, (c.req t.request).requester = q) ∧
      ∀ x ∈ e.accepted, x.2 = ((answered e.asked).map Prod.snd).filter
        fun r => (c.req r.1.request).requester = x.1) ∧
    (e.rows.map TRow.id = List.range' n e.rows.length ∧ e.nextId = n + e.rows.length ∧
      (e.rows.map contents).Perm (((answered e.asked).filter fun y => eps < w.qty e.mid y.2.2).map
        (rowOf c w e.mid))) := by
  have hg := group_fold c ts ⟨[], [], fun _ => [], fun _ => [], [], fun _ => []⟩
  have hf0 : Filed c (answered []) (groupTrades c ts) := by
    refine ⟨?_, ?_, ?_, ?_⟩
    · intro q; show (groupTrades c ts).byRequester q = _
      have := hg.rest.1; unfold groupTrades; rw [this]; rfl
    · intro q; show (groupTrades c ts).all q = _
      have := hg.rest.2.2; unfold groupTrades; rw [this]; rfl
    · intro k; have := hg.rest.2.1; unfold groupTrades; rw [this]; simp [answered]
    · have := hg.rest.2.1; unfold groupTrades; rw [this]; exact List.nodup_nil
  obtain ⟨st', x', new, h1, h2, h3, h4, h5⟩ :=
    ask_fold (c := c) (w := w) (ord (groupTrades c ts).suppliers) (st := st) hf0
  rw [List.nil_append] at h1 h2
  have hreq : ∀ q, q ∈ x'.requesters ↔ ∃ t ∈ ts, (c.req t.request).requester = q := by
    intro q; rw [h5]; unfold groupTrades; rw [hg.req]; simp
  have hreqn : x'.requesters.Nodup := by
    rw [h5]; exact hg.rn List.nodup_nil
  simp only [executeTrades, h1]
  refine ⟨⟨?_, ?_, ?_⟩, ⟨?_, ?_, ?_⟩, ?_⟩
  · rw [h3, (ho _).nodup_iff]; exact hg.sn List.nodup_nil
  · intro s
    rw [h3, (ho _).mem_iff]
    unfold groupTrades; rw [hg.sup]; simp
  · intro a ha
    rw [h4 a ha]
    unfold groupTrades
    rw [hg.by_]; simp
  · rw [send_fold]
    simp only [List.nil_append, List.map_map, Function.comp_def, List.map_id']
    rw [(ho _).nodup_iff]; exact hreqn
  · intro q
    rw [send_fold]
    simp only [List.nil_append, List.map_map, Function.comp_def, List.map_id']
    rw [(ho _).mem_iff]; exact hreq q
  · intro x hx
    rw [send_fold, List.nil_append] at hx
    obtain ⟨q, _, rfl⟩ := List.mem_map.1 hx
    simp only
    rw [h2.by_ q, List.filter_map]
    rfl
  · have hfl := foldl_foldl (fun acc (y : (ℕ × ℕ) × Response) => recordStep c w eps st' y.1 acc y.2)
      x'.all (ordP x'.pairs) (n, [])
    simp only at hfl
    rw [hfl]
    obtain ⟨rows, e1, e2, e3⟩ := record_fold c w eps st'
      ((ordP x'.pairs).flatMap fun k => (x'.all k).map fun b => (k, b)) n []
    rw [e1]
    refine ⟨e2, rfl, ?_⟩
    simp only [List.nil_append]
    rw [e3]
    -- the responses, pair by pair, are all responses
    have hperm : ((ordP x'.pairs).flatMap fun k => (x'.all k).map fun b => (k, b)).Perm
        ((answered new).map fun y => ((y.1, (c.req y.2.1.request).requester), y.2)) := by
      have hk : ((ordP x'.pairs).flatMap fun k => (x'.all k).map fun b => (k, b)) =
          ((ordP x'.pairs).flatMap fun k =>
            (answered new).filter fun y => (y.1, (c.req y.2.1.request).requester) = k).map
              fun y => ((y.1, (c.req y.2.1.request).requester), y.2) := by
        rw [List.map_flatMap]
        congr 1
        funext k
        rw [h2.all k, List.map_map]
        apply List.map_congr_left
        intro y hy
        rw [List.mem_filter, decide_eq_true_eq] at hy
        simp only [Function.comp]
        rw [hy.2]
      rw [hk]
      refine List.Perm.map _ ?_
      exact split_perm_all ((hP _).nodup_iff.2 h2.nodup)
        fun y hy => (hP _).mem_iff.2 ((h2.mem _).2 ⟨y, hy, rfl⟩)
    refine ((hperm.filter _).map _).trans (List.Perm.of_eq ?_)
    rw [List.filter_map, List.map_map]
    rfl

/-! ## C18 -/

/-- **C18**, suppliers: every supplier with a trade is asked exactly once, no one else is asked, and
a supplier is asked for exactly its own trades, in order. -/
theorem C18_suppliers {ord : List ℕ → List ℕ} {ordP : List (ℕ × ℕ) → List (ℕ × ℕ)}
    (ho : IsOrder ord) (hP : IsOrder ordP) (st : σ) (n : ℕ) (ts : List Trade) :
    let e := executeTrades c w eps ord ordP st n ts
    (e.asked.map Asked.supplier).Nodup ∧
      (∀ s, s ∈ e.asked.map Asked.supplier ↔ ∃ t ∈ ts, (c.bid t.bid).bidder = s) ∧
      ∀ a ∈ e.asked, a.trades = ts.filter fun t => (c.bid t.bid).bidder = a.supplier :=
  (execute_spec ho hP st n ts).1

/-- **C18**, requesters: every requester with a trade is sent its responses exactly once, and it is
sent exactly the responses to its requests. -/
theorem C18_requesters {ord : List ℕ → List ℕ} {ordP : List (ℕ × ℕ) → List (ℕ × ℕ)}
    (ho : IsOrder ord) (hP : IsOrder ordP) (st : σ) (n : ℕ) (ts : List Trade) :
    let e := executeTrades c w eps ord ordP st n ts
    (e.accepted.map Prod.fst).Nodup ∧
      (∀ q, q ∈ e.accepted.map Prod.fst ↔ ∃ t ∈ ts, (c.req t.request).requester = q) ∧
      ∀ x ∈ e.accepted, x.2 = ((answered e.asked).map Prod.snd).filter
        fun r => (c.req r.1.request).requester = x.1 :=
  (execute_spec ho hP st n ts).2.1

/-- **C18**, every response is delivered exactly once, if suppliers respond to requesters of the
trades. -/
theorem C18_delivered_partial {ord : List ℕ → List ℕ} {ordP : List (ℕ × ℕ) → List (ℕ × ℕ)}
    (ho : IsOrder ord) (hP : IsOrder ordP) (st : σ) (n : ℕ) (ts : List Trade)
    (hr : ∀ y ∈ answered (executeTrades c w eps ord ordP st n ts).asked, ∃ t ∈ ts,
      (c.req t.request).requester = (c.req y.2.1.request).requester) :
    ((executeTrades c w eps ord ordP st n ts).accepted.flatMap Prod.snd).Perm
      ((answered (executeTrades c w eps ord ordP st n ts).asked).map Prod.snd) := by
  obtain ⟨h1, h2, h3⟩ := (execute_spec (c := c) (w := w) (eps := eps) ho hP st n ts).2.1
  have e1 : (executeTrades c w eps ord ordP st n ts).accepted.flatMap Prod.snd =
      ((executeTrades c w eps ord ordP st n ts).accepted.map Prod.fst).flatMap fun q =>
        ((answered (executeTrades c w eps ord ordP st n ts).asked).map Prod.snd).filter
          fun r => (c.req r.1.request).requester = q := by
    rw [List.flatMap_map]
    exact List.flatMap_congr fun x hx => h3 x hx
  rw [e1]
  refine split_perm_all h1 ?_
  intro r hr'
  obtain ⟨y, hy, rfl⟩ := List.mem_map.1 hr'
  rw [h2]
  exact hr y hy

/-- **C18**, transactions: there is one row for every response with more than `eps_rsrc()`, naming
the supplier that was asked, the requester, the resource and the commodity. -/
theorem C18_rows {ord : List ℕ → List ℕ} {ordP : List (ℕ × ℕ) → List (ℕ × ℕ)}
    (ho : IsOrder ord) (hP : IsOrder ordP) (st : σ) (n : ℕ) (ts : List Trade) :
    let e := executeTrades c w eps ord ordP st n ts
    (e.rows.map contents).Perm (((answered e.asked).filter fun y => eps < w.qty e.mid y.2.2).map
      (rowOf c w e.mid)) :=
  (execute_spec ho hP st n ts).2.2.2.2

end

/-- **C18**, transaction ids: over any sequence of exchanges the transactions are numbered
consecutively from the first unused id; so no id is used twice, or again. -/
theorem C18_ids {σ : Type} {w : World σ} {eps : ℚ}
    (runs : List (Ctx × (List ℕ → List ℕ) × (List (ℕ × ℕ) → List (ℕ × ℕ)) × List Trade))
    (ho : ∀ r ∈ runs, IsOrder r.2.1 ∧ IsOrder r.2.2.1) (st : σ) (n : ℕ) :
    let e := executeAll w eps st n runs
    e.2.2.map TRow.id = List.range' n e.2.2.length ∧ e.2.1 = n + e.2.2.length ∧
      (e.2.2.map TRow.id).Nodup ∧ ∀ r ∈ e.2.2, n ≤ r.id ∧ r.id < e.2.1 := by
  have key : ∀ (runs : List (Ctx × (List ℕ → List ℕ) × (List (ℕ × ℕ) → List (ℕ × ℕ)) × List Trade))
      (st : σ) (n : ℕ), (∀ r ∈ runs, IsOrder r.2.1 ∧ IsOrder r.2.2.1) →
      (executeAll w eps st n runs).2.2.map TRow.id =
        List.range' n (executeAll w eps st n runs).2.2.length ∧
      (executeAll w eps st n runs).2.1 = n + (executeAll w eps st n runs).2.2.length := by
    intro runs
    induction runs with
    | nil => intro st n _; exact ⟨rfl, rfl⟩
    | cons r runs ih =>
      obtain ⟨c, ord, ordP, ts⟩ := r
      intro st n ho
      obtain ⟨h1, h2⟩ := ho _ List.mem_cons_self
      have he := (execute_spec (c := c) (w := w) (eps := eps) h1 h2 st n ts).2.2
      obtain ⟨i1, i2⟩ := ih (executeTrades c w eps ord ordP st n ts).st
        (executeTrades c w eps ord ordP st n ts).nextId
        fun r hr => ho r (List.mem_cons_of_mem _ hr)
      dsimp only at he
      simp only [executeAll]
      rw [List.map_append, he.1, i1, List.length_append, i2, he.2.1]
      refine ⟨?_, by omega⟩
      rw [← List.range'_append_1]
  intro e
  obtain ⟨h1, h2⟩ := key runs st n ho
  refine ⟨h1, h2, ?_, ?_⟩
  · show ((executeAll w eps st n runs).2.2.map TRow.id).Nodup
    rw [h1]; exact List.nodup_range'
  · intro r hr
    have hm : r.id ∈ (executeAll w eps st n runs).2.2.map TRow.id := List.mem_map.2 ⟨r, hr, rfl⟩
    rw [h1, List.mem_range'_1] at hm
    show n ≤ r.id ∧ r.id < (executeAll w eps st n runs).2.1
    rw [h2]; exact hm

/-! ## Concrete cases -/

/-- Suppliers answer every trade with resource `10 + bid`; resource 11 is too small to record. -/
def exWorld : World (List ℕ) where
  supply := fun st s ts => (st ++ [s], ts.map fun t => (t, 10 + t.bid))
  accept := fun st q _ => st ++ [q]
  qty := fun _ r => if r = 11 then 0 else 3
  stateId := fun _ r => r

def exTradeList : List Trade := [⟨2, 1, 2⟩, ⟨0, 0, 5 / 2⟩, ⟨1, 2, 1⟩]

/-- Three trades of two suppliers and two requesters: two transactions are recorded and the three
responses are delivered. -/
example : IsOrder (id : List ℕ → List ℕ) ∧ IsOrder (List.reverse : List (ℕ × ℕ) → _) ∧
    (executeTrades exCtx exWorld (1 / 1000000) id List.reverse [] 7 exTradeList).rows =
      [⟨7, 4, 1, 12, "v"⟩, ⟨8, 3, 1, 10, "u"⟩] ∧
    (executeTrades exCtx exWorld (1 / 1000000) id List.reverse [] 7 exTradeList).accepted =
      [(2, [(⟨2, 1, 2⟩, 11)]), (1, [(⟨0, 0, 5 / 2⟩, 10), (⟨1, 2, 1⟩, 12)])] ∧
    (executeTrades exCtx exWorld (1 / 1000000) id List.reverse [] 7 exTradeList).st = [3, 4, 2, 1] ∧
    ∀ y ∈ answered (executeTrades exCtx exWorld (1 / 1000000) id List.reverse [] 7 exTradeList).asked,
      ∃ t ∈ exTradeList,
        (exCtx.req t.request).requester = (exCtx.req y.2.1.request).requester := by
  refine ⟨fun l => List.Perm.refl l, fun l => List.reverse_perm l, by decide +kernel,
    by decide +kernel, by decide +kernel, by decide +kernel⟩

/-- Two exchanges with the same traders. -/
example : (executeAll exWorld (1 / 1000000) [] 0 [(exCtx, id, List.reverse, exTradeList),
    (exCtx, id, id, exTradeList)]).2.2.map TRow.id = [0, 1, 2, 3] := by decide +kernel

/-- A supplier that answers a trade with requester 2 by naming the request of requester 1. -/
def exForeign : World Unit where
  supply := fun _ _ _ => ((), [(⟨0, 0, 1⟩, 10)])
  accept := fun _ _ _ => ()
  qty := fun _ _ => 3
  stateId := fun _ r => r

/-- **C18 fails for responses to foreign requesters**: a response whose requester has no trade is
recorded as a transaction but delivered to nobody. -/
theorem C18_fails_foreign :
    ∃ (c : Ctx) (w : World Unit) (ts : List Trade),
      (answered (executeTrades c w 0 id id () 0 ts).asked).map Prod.snd = [(⟨0, 0, 1⟩, 10)] ∧
      (executeTrades c w 0 id id () 0 ts).rows.length = 1 ∧
      (executeTrades c w 0 id id () 0 ts).accepted.flatMap Prod.snd = [] :=
  ⟨exCtx, exForeign, [⟨2, 1, 2⟩], by decide +kernel, by decide +kernel, by decide +kernel⟩

end Cyclus.Dre
