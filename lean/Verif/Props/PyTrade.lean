import Verif.Lemmas.PyTrade
import Mathlib.Tactic.Linarith
import Mathlib.Tactic.NormNum

/-!
# C122: the portfolios of agents written in Python
-/

namespace Cyclus.PyTrade.Props

open Cyclus.Dre Cyclus.PyTrade Cyclus.PyTrade.Spec

/-! ## Requests -/

/-- A request portfolio with a list of commodities, one name each, becomes the C++ portfolio with
these requests in this order, each with the preference and the exclusivity written beside it. -/
theorem C122_requests {oq : ℕ → ℚ} {k : Kind} {t : ℕ} {v : Val} {ws : List Wish} {caps : List ℚ}
    (h : Asks k v ws caps) (hne : ws ≠ []) (hm : mean ws ≠ 0) (hc : ∀ c ∈ caps, 0 < c) :
    ∃ s, reqPort oq k t v = .ok s ∧ Requests oq t ws caps s := by
  obtain ⟨d, cs, rfl, hk, hcs, hw, hcap⟩ := h
  obtain ⟨xs, hx, hs⟩ := normLoop_of_commodities hw []
  refine reqPort_of_std (xs := xs) (caps := caps) ?_ hs ?_ hne hm hc
  · simp only [normReq, asDict, lookup_of_mem hk hcs, iter, flatten_of_commodities hw]
    simp only [List.nil_append, List.length_nil] at hx
    simp only [hx, constrs_of_caps hk hcap]
  · clear hx hs hcs hm hne
    induction hw with
    | nil => simp
    | cons hc _ ih =>
      intro w hw
      rcases List.mem_cons.1 hw with rfl | hw
      · obtain ⟨_, _, _, _, _, _, _, h, _⟩ := hc
        exact h
      · exact ih w hw

/-- Ten units of fuel. -/
def fuel : Res := ⟨.material, 0, 10⟩

/-- Thirty units of another fuel. -/
def mox : Res := ⟨.material, 1, 30⟩

/-- A portfolio for two fuels. -/
def both : Val :=
  .map [("commodities", .seq [.map [("uox", .res fuel)],
    .map [("mox", .res mox), ("preference", .num 2), ("exclusive", .bool true)]]),
    ("constraints", .num 50)]

/-- It asks for both. -/
theorem asks_both : Asks .material both [⟨"uox", fuel, 1, false⟩, ⟨"mox", mox, 2, true⟩] [50] := by
  refine ⟨_, _, rfl, by unfold Keys; decide +kernel, List.mem_cons_self, ?_, ?_⟩
  · refine .cons ⟨_, rfl, by unfold Keys; decide +kernel, by simp, by simp, by decide +kernel,
      by decide +kernel, rfl, Or.inl ⟨by simp [Lacks], rfl⟩, Or.inl ⟨by simp [Lacks], rfl⟩⟩
      (.cons ⟨_, rfl, by unfold Keys; decide +kernel, by simp, by simp, by decide +kernel,
      by decide +kernel, rfl, Or.inr ⟨.num 2, by simp, .num 2⟩,
        Or.inr ⟨.bool true, by simp, ⟨fun h => by simp at h, fun h => nomatch h⟩⟩⟩ .nil)
  · exact Or.inr (Or.inl ⟨50, by simp, rfl⟩)

example : ∃ s, reqPort (fun _ => 5) .material 7 both = .ok s ∧
    Requests (fun _ => 5) 7 [⟨"uox", fuel, 1, false⟩, ⟨"mox", mox, 2, true⟩] [50] s :=
  C122_requests asks_both (by simp) (by norm_num [mean, fuel, mox]) (by simp)

example : mean [⟨"uox", fuel, 1, false⟩, ⟨"mox", mox, 2, true⟩] = 20 := by
  norm_num [mean, fuel, mox]

/-- A dict of resources asks for each of them with preference 1. -/
theorem C122_plain {oq : ℕ → ℚ} {k : Kind} {t : ℕ} {d : Dict} {ws : List Wish}
    (h : AsksPlainly k d ws) (hne : ws ≠ []) (hm : mean ws ≠ 0) :
    ∃ s, reqPort oq k t (.map d) = .ok s ∧ Requests oq t ws [] s := by
  obtain ⟨hkeys, hl, hw⟩ := h
  clear hkeys
  have hd : d = ws.map fun w => (w.name, Val.res w.res) := by
    clear hl hne hm
    induction hw with
    | nil => rfl
    | cons hc _ ih => rw [ih, hc.1]; rfl
  have hall : ∀ w ∈ ws, w.res.kind = k ∧ w.name ≠ "preference" ∧ w.name ≠ "exclusive" ∧
      w.pref = 1 ∧ w.excl = false := by
    clear hl hne hm hd
    induction hw with
    | nil => simp
    | cons hc _ ih =>
      intro w hw
      rcases List.mem_cons.1 hw with rfl | hw
      · exact hc.2
      · exact ih w hw
  obtain ⟨xs, hx, hs⟩ := normLoop_plain ws 0 fun w hw => (hall w hw).2.2.2
  refine reqPort_of_std (xs := xs) (caps := []) ?_ hs (fun w hw => (hall w hw).1) hne hm (by simp)
  have hn : names d = ws.map fun w => (w.name, Val.res w.res) := by
    rw [hd]
    unfold names
    rw [List.filter_eq_self]
    intro e he
    obtain ⟨w, hw, rfl⟩ := List.mem_map.1 he
    simp [(hall w hw).2.1, (hall w hw).2.2.1]
  simp only [normReq, asDict, lookup_of_lacks hl, hn, hx]
  rfl

example : ∃ s, reqPort (fun _ => 5) .material 7 (.map [("uox", .res fuel), ("mox", .res mox)]) =
    .ok s ∧ Requests (fun _ => 5) 7 [⟨"uox", fuel, 1, false⟩, ⟨"mox", mox, 1, false⟩] [] s :=
  C122_plain ⟨by unfold Keys; decide +kernel, by simp [Lacks],
    .cons ⟨rfl, rfl, by decide +kernel, by decide +kernel, rfl, rfl⟩
      (.cons ⟨rfl, rfl, by decide +kernel, by decide +kernel, rfl, rfl⟩ .nil)⟩ (by simp)
    (by norm_num [mean, fuel, mox])

theorem dictSet_new {k : String} {v : Val} : ∀ {d : Dict}, Lacks d k → dictSet d k v = d ++ [(k, v)]
  | [], _ => rfl
  | (k', v') :: d, h => by
    have hne : k' ≠ k := by
      rintro rfl
      exact h v' (by simp)
    simp only [dictSet, if_neg hne, List.cons_append]
    rw [dictSet_new fun x hx => h x (List.mem_cons_of_mem _ hx)]

theorem dictOf_pairs : ∀ (d acc : Dict), Keys (acc ++ d) →
    dictOf (d.map fun e => .seq [.str e.1, e.2]) acc = .ok (acc ++ d)
  | [], acc, _ => by simp [dictOf]
  | e :: d, acc, h => by
    have hl : Lacks acc e.1 := by
      intro v hv
      unfold Keys at h
      rw [List.map_append, List.nodup_append] at h
      exact h.2.2 e.1 (List.mem_map.2 ⟨(e.1, v), hv, rfl⟩) e.1 (by simp) rfl
    simp only [List.map_cons, dictOf, iter, dictSet_new hl]
    rw [dictOf_pairs d (acc ++ [(e.1, e.2)]) (by simpa using h)]
    simp

/-- A list of pairs is the same as a dict. -/
theorem C122_pairs (oq : ℕ → ℚ) (k : Kind) (t : ℕ) {d : Dict} (h : Keys d) :
    reqPort oq k t (.seq (d.map fun e => .seq [.str e.1, e.2])) = reqPort oq k t (.map d) := by
  simp only [reqPort, normReq, asDict, iter, dictOf_pairs d [] h, List.nil_append]

example : Keys [("uox", .res fuel), ("mox", .res mox)] := by unfold Keys; decide +kernel

theorem dictSet_spec (k : String) (v : Val) : ∀ (d : Dict), Keys d → Keys (dictSet d k v) ∧
    (∀ k', k' ∈ (dictSet d k v).map Prod.fst ↔ k' = k ∨ k' ∈ d.map Prod.fst) ∧
    ∀ k' v', (k', v') ∈ dictSet d k v ↔ (k' = k ∧ v' = v) ∨ (k' ≠ k ∧ (k', v') ∈ d)
  | [], _ => by simp [dictSet, Keys]
  | (a, b) :: d, h => by
    unfold Keys at h
    rw [List.map_cons, List.nodup_cons] at h
    obtain ⟨i1, i2, i3⟩ := dictSet_spec k v d h.2
    by_cases hk : a = k
    · subst hk
      have hne : ∀ k' v', (k', v') ∈ d → k' ≠ a := by
        rintro k' v' hm rfl
        exact h.1 (List.mem_map.2 ⟨_, hm, rfl⟩)
      simp only [dictSet, if_true]
      refine ⟨by unfold Keys; rw [List.map_cons, List.nodup_cons]; exact h, by simp, ?_⟩
      intro k' v'
      simp only [List.mem_cons, Prod.mk.injEq]
      constructor
      · rintro (hh | hh)
        · exact Or.inl hh
        · exact Or.inr ⟨hne _ _ hh, Or.inr hh⟩
      · rintro (hh | ⟨hh, hh' | hh'⟩)
        · exact Or.inl hh
        · exact absurd hh'.1 hh
        · exact Or.inr hh'
    · simp only [dictSet, if_neg hk]
      refine ⟨?_, ?_, ?_⟩
      · unfold Keys
        rw [List.map_cons, List.nodup_cons]
        refine ⟨fun hm => ?_, i1⟩
        rcases (i2 a).1 hm with hh | hh
        · exact hk hh
        · exact h.1 hh
      · intro k'
        rw [List.map_cons, List.mem_cons, i2, List.map_cons, List.mem_cons]
        tauto
      · intro k' v'
        rw [List.mem_cons, i3, List.mem_cons]
        constructor
        · rintro (hh | hh | hh)
          · obtain ⟨rfl, rfl⟩ := Prod.mk.inj hh
            exact Or.inr ⟨hk, Or.inl rfl⟩
          · exact Or.inl hh
          · exact Or.inr ⟨hh.1, Or.inr hh.2⟩
        · rintro (hh | ⟨hh, hh' | hh'⟩)
          · exact Or.inr (Or.inl hh)
          · exact Or.inl hh'
          · exact Or.inr (Or.inr ⟨hh, hh'⟩)

theorem dictOf_repeated (rest : List Val) : ∀ (l acc : Dict), Keys acc → ∃ d, Keys d ∧
    dictOf ((l.map fun e => .seq [.str e.1, e.2]) ++ rest) acc = dictOf rest d ∧
    ∀ k v, (k, v) ∈ d ↔ (∃ a b, l = a ++ (k, v) :: b ∧ Lacks b k) ∨ (Lacks l k ∧ (k, v) ∈ acc)
  | [], acc, h => ⟨acc, h, rfl, by simp [Lacks]⟩
  | (k₀, v₀) :: l, acc, h => by
    obtain ⟨s1, -, s3⟩ := dictSet_spec k₀ v₀ acc h
    obtain ⟨d, hd, h1, h2⟩ := dictOf_repeated rest l _ s1
    refine ⟨d, hd, by simpa only [List.map_cons, List.cons_append, dictOf, iter] using h1, ?_⟩
    intro k v
    rw [h2, s3]
    constructor
    · rintro (⟨a, b, rfl, hb⟩ | ⟨hl, ⟨rfl, rfl⟩ | ⟨hk, ha⟩⟩)
      · exact Or.inl ⟨(k₀, v₀) :: a, b, rfl, hb⟩
      · exact Or.inl ⟨[], l, rfl, hl⟩
      · refine Or.inr ⟨fun x hx => ?_, ha⟩
        rcases List.mem_cons.1 hx with hx | hx
        · exact hk (Prod.mk.inj hx).1
        · exact hl x hx
    · rintro (⟨a, b, he, hb⟩ | ⟨hl, ha⟩)
      · rcases a with _ | ⟨e, a⟩
        · simp only [List.nil_append, List.cons.injEq, Prod.mk.injEq] at he
          obtain ⟨⟨rfl, rfl⟩, rfl⟩ := he
          exact Or.inr ⟨hb, Or.inl ⟨rfl, rfl⟩⟩
        · simp only [List.cons_append, List.cons.injEq] at he
          exact Or.inl ⟨a, b, he.2, hb⟩
      · refine Or.inr ⟨fun x hx => hl x (List.mem_cons_of_mem _ hx), Or.inr ⟨?_, ha⟩⟩
        rintro rfl
        exact hl v₀ (by simp)

/-- In a list of pairs a key may occur several times: the last one counts. -/
theorem C122_pairs_repeated (oq : ℕ → ℚ) (k : Kind) (t : ℕ) (l : Dict) :
    ∃ d, Keys d ∧ reqPort oq k t (.seq (l.map fun e => .seq [.str e.1, e.2])) = reqPort oq k t (.map d) ∧
      ∀ n v, (n, v) ∈ d ↔ ∃ a b, l = a ++ (n, v) :: b ∧ Lacks b n := by
  obtain ⟨d, hd, h1, h2⟩ := dictOf_repeated [] l [] (by simp [Keys])
  rw [List.append_nil] at h1
  refine ⟨d, hd, ?_, fun n v => by rw [h2]; simp⟩
  simp only [reqPort, normReq, asDict, iter, h1, dictOf]

/-- A pair whose first part is not a name, or something that is not a pair, raises an error. -/
theorem C122_pairs_error (oq : ℕ → ℚ) (k : Kind) (t : ℕ) (l : Dict) (rest : List Val) :
    (∀ v w, (∀ n, v ≠ .str n) → reqPort oq k t
      (.seq ((l.map fun e => .seq [.str e.1, e.2]) ++ .seq [v, w] :: rest)) = .error .type) ∧
    ∀ vs, vs.length ≠ 2 → reqPort oq k t
      (.seq ((l.map fun e => .seq [.str e.1, e.2]) ++ .seq vs :: rest)) = .error .value := by
  constructor
  · intro v w hv
    obtain ⟨d, -, h1, -⟩ := dictOf_repeated (.seq [v, w] :: rest) l [] (by simp [Keys])
    have : dictOf (.seq [v, w] :: rest) d = .error .type := by
      cases v <;> simp_all [dictOf, iter]
    simp only [reqPort, normReq, asDict, iter, h1, this]
  · intro vs hv
    obtain ⟨d, -, h1, -⟩ := dictOf_repeated (.seq vs :: rest) l [] (by simp [Keys])
    have : dictOf (.seq vs :: rest) d = .error .value := by
      rcases vs with _ | ⟨a, _ | ⟨b, _ | ⟨c, vs⟩⟩⟩
      · rfl
      · cases a <;> rfl
      · simp at hv
      · cases a <;> rfl
    simp only [reqPort, normReq, asDict, iter, h1, this]

example : (∀ n, Val.num 3 ≠ .str n) ∧ [Val.none].length ≠ 2 := ⟨by simp, by simp⟩

/-- An agent may return one portfolio as a dict, or a list of portfolios: each becomes a portfolio
of its own. -/
theorem C122_many (oq : ℕ → ℚ) (k : Kind) (t : ℕ) :
    (∀ d s, reqPort oq k t (.map d) = .ok s → getRequests oq k t (.map d) = .ok [s]) ∧
    (∀ l ss, List.Forall₂ (fun v s => reqPort oq k t v = .ok s) l ss →
      getRequests oq k t (.seq l) = .ok ss) := by
  constructor
  · intro d s h
    simp [getRequests, reqPorts, h]
  · intro l ss h
    simp only [getRequests, iter]
    induction h with
    | nil => rfl
    | cons h _ ih => simp only [reqPorts, h, ih]

example : (getRequests (fun _ => 5) .material 7 (.seq [both, both])).toOption.map List.length =
    some 2 := by decide +kernel

/-! Every value of a name has to be a resource. -/

theorem normLoop_resources : ∀ {cs : Option Val} {l : List (String × Val)} {i : ℕ}
    {xs : List (String × PReq)}, normLoop cs i l = .ok xs → ∀ e ∈ l, ∃ r, e.2 = .res r
  | _, [], _, _, _, e, he => by simp at he
  | cs, kv :: l, i, xs, h, e, he => by
    rw [normLoop] at h
    rcases ho : normOne cs i kv with er | x
    · rw [ho] at h; simp at h
    · rw [ho] at h
      rcases hl : normLoop cs (i + 1) l with er | ys
      · rw [hl] at h; simp at h
      · rcases List.mem_cons.1 he with rfl | he
        · rcases hv : e.2 with _ | _ | _ | _ | _ | r | _ | _ | _ | _
          all_goals first
            | exact ⟨r, rfl⟩
            | (simp [normOne, hv] at ho)
        · exact normLoop_resources hl e he

theorem flatten_mem : ∀ {cs : List Val} {l : List (String × Val)}, flatten cs = .ok l →
    ∀ e : Dict, .map e ∈ cs → ∀ x ∈ names e, x ∈ l
  | [], _, _, e, he => by simp at he
  | c :: cs, l, h, e, he => by
    intro x hx
    cases c with
    | map d =>
      rw [flatten] at h
      rcases hf : flatten cs with er | l'
      · rw [hf] at h; simp at h
      · rw [hf] at h
        simp only [Except.ok.injEq] at h
        subst h
        rcases List.mem_cons.1 he with he | he
        · cases he
          exact List.mem_append_left _ hx
        · exact List.mem_append_right _ (flatten_mem hf e he x hx)
    | _ => simp [flatten] at h

/-- In a portfolio that is accepted, whatever a commodity names is a resource: neither a dict with a
target nor a list of resources is accepted. -/
theorem C122_only_resources {d e : Dict} {cs : List Val} {n : String} {v : Val} (hk : Keys d)
    (hcs : ("commodities", .seq cs) ∈ d) (he : .map e ∈ cs) (hv : (n, v) ∈ e)
    (hp : n ≠ "preference") (hx : n ≠ "exclusive") (hr : ∀ r, v ≠ .res r) :
    ∀ oq k t s, reqPort oq k t (.map d) ≠ .ok s := by
  intro oq k t s h
  simp only [reqPort, normReq, asDict, lookup_of_mem hk hcs, iter] at h
  rcases hf : flatten cs with er | l
  · rw [hf] at h; simp at h
  · rw [hf] at h
    simp only at h
    rcases hl : normLoop (some (.seq cs)) 0 l with er | ys
    · rw [hl] at h; simp at h
    · obtain ⟨r, hrr⟩ := normLoop_resources hl (n, v) (flatten_mem hf e he _ (by
        simp [names, hv, hp, hx]))
      exact hr r hrr

example : ∀ oq k t s, reqPort oq k t (.map [("commodities",
    .seq [.map [("uox", .seq [.res fuel])]])]) ≠ .ok s :=
  C122_only_resources (e := [("uox", .seq [.res fuel])]) (cs := [.map [("uox", .seq [.res fuel])]])
    (by unfold Keys; decide +kernel) (by simp) (by simp) (List.mem_singleton_self _)
    (by decide +kernel) (by decide +kernel) (by simp)

/-- The same for a dict without the key `commodities`. -/
theorem C122_only_resources_plain {d : Dict} {n : String} {v : Val} (hl : Lacks d "commodities")
    (hv : (n, v) ∈ d) (hp : n ≠ "preference") (hx : n ≠ "exclusive") (hr : ∀ r, v ≠ .res r) :
    ∀ oq k t s, reqPort oq k t (.map d) ≠ .ok s := by
  intro oq k t s h
  simp only [reqPort, normReq, asDict, lookup_of_lacks hl] at h
  rcases hn : normLoop none 0 (names d) with er | ys
  · rw [hn] at h; simp at h
  · obtain ⟨r, hrr⟩ := normLoop_resources hn (n, v) (by simp [names, hv, hp, hx])
    exact hr r hrr

example : ∀ oq k t s, reqPort oq k t (.map [("uox", .res fuel), ("constraints", .num 5)]) ≠ .ok s :=
  C122_only_resources_plain (n := "constraints") (v := .num 5) (by simp [Lacks]) (by simp)
    (by decide +kernel) (by decide +kernel) (by simp)

/-! ### What fails -/

/-- All the forms of a request that `normalize_request_portfolio` tests for should be accepted. -/
def C122_statement_forms : Prop :=
  ∀ (oq : ℕ → ℚ) (k : Kind) (t : ℕ) (m : Res), m.kind = k → 0 < m.qty →
    ∀ v, (v = .res m ∨ v = .map [("target", .res m)] ∨ v = .seq [.res m] ∨
      v = .seq [.map [("target", .res m)]]) →
    ∃ s, reqPort oq k t (.map [("uox", v)]) = .ok s ∧
      Requests oq t [⟨"uox", m, 1, false⟩] [] s

/-- Only a resource is: the dict and the lists raise `TypeError`, since the result is assigned to
`commods[key]`, where `commods` is a list (`lib.pyx:1840,1853`). -/
theorem C122_fails_forms : ¬ C122_statement_forms := by
  intro h
  obtain ⟨s, hs, _⟩ := h (fun _ => 0) .material 0 fuel rfl (by norm_num [fuel]) _ (Or.inr (Or.inl rfl))
  exact C122_only_resources_plain (n := "uox") (v := .map [("target", .res fuel)]) (by simp [Lacks])
    (by simp) (by decide +kernel) (by decide +kernel) (by simp) _ _ _ _ hs

/-- The error is `TypeError` for each of the three. -/
theorem C122_fails_forms_error (oq : ℕ → ℚ) (k : Kind) (t : ℕ) (m : Res) (d : Dict)
    (l : List Val) :
    reqPort oq k t (.map [("uox", .map d)]) = .error .type ∧
    reqPort oq k t (.map [("uox", .seq l)]) = .error .type ∧
    reqPort oq k t (.map [("commodities", .seq [.map [("uox", .res m), ("preference", .num 2)],
      .map [("mox", .map d)]])]) = .error .type := by
  refine ⟨rfl, rfl, rfl⟩

/-- A commodity with two names: the position in the list of all names is used in the list of
commodities (`lib.pyx:1831-1835`), so that the second name is looked up past the end. -/
theorem C122_fails_names_index (oq : ℕ → ℚ) (k : Kind) (t : ℕ) (m m' : Res) :
    reqPort oq k t (.map [("commodities", .seq [.map [("uox", .res m), ("mox", .res m')]])]) =
      .error .index := rfl

/-- … or gets the preference of another commodity: here `mox`, which has preference 5 like `uox`
beside it, is requested with the preference 2 of `thox`, and `thox` with that of the commodity
after it. -/
theorem C122_fails_names_preference :
    (normReq (.map [("commodities", .seq [
      .map [("uox", .res fuel), ("mox", .res mox), ("preference", .num 5)],
      .map [("thox", .res fuel), ("preference", .num 2)],
      .map [("preference", .num 3)]])])).toOption.map
        (fun p => p.1.map fun x => (x.1, (toDouble x.2.pref).toOption)) =
      some [("uox", some (some 5)), ("mox", some (some 2)), ("thox", some (some 3))] := by
  decide +kernel

/-- Without the key `commodities` a preference is dropped (`lib.pyx:1812-1815,1831`). -/
theorem C122_fails_plain_preference (oq : ℕ → ℚ) (k : Kind) (t : ℕ) (m : Res) (v : Val) :
    reqPort oq k t (.map [("uox", .res m), ("preference", v)]) =
      reqPort oq k t (.map [("uox", .res m)]) := rfl

/-- Without the key `commodities` a constraint is taken for a commodity (`lib.pyx:1812-1816`). -/
theorem C122_fails_plain_constraints (oq : ℕ → ℚ) (k : Kind) (t : ℕ) (m : Res) (c : ℚ) :
    reqPort oq k t (.map [("uox", .res m), ("constraints", .num c)]) = .error .type := rfl

/-- A dict of commodities in place of a list of dicts is refused (`lib.pyx:1803-1804`). -/
theorem C122_fails_dict (oq : ℕ → ℚ) (k : Kind) (t : ℕ) (n : String) (v : Val) (d : Dict) :
    reqPort oq k t (.map [("commodities", .map ((n, v) :: d))]) = .error .attribute := rfl

/-- A portfolio without commodities is given to `AddMutualReqs` all the same: its quantity is 0/0
(`gentypesystem.py:2189`, `request_portfolio.h:151-161`).  The sink of `pyagents.py` returns it if
it has no commodities. -/
theorem C122_fails_empty (oq : ℕ → ℚ) (k : Kind) (t : ℕ) :
    reqPort oq k t (.map [("commodities", .seq [])]) = .error .nan := by
  simp [reqPort, normReq, asDict, iter, flatten, normLoop, addReqs, RSt.init, RSt.step,
    RP.addMutual]

/-- A product in a portfolio of materials is not detected before it is cast
(`lib.pyx:1827`, `gentypesystem.py:2180`). -/
theorem C122_fails_kind (oq : ℕ → ℚ) (t : ℕ) (r : Res) (h : r.kind = .product) (n : String)
    (hc : n ≠ "commodities") (hp : n ≠ "preference") (hx : n ≠ "exclusive") :
    (∃ p, normReq (.map [(n, .res r)]) = .ok p) ∧
    reqPort oq .material t (.map [(n, .res r)]) = .error .undefined := by
  have hl : Lacks [(n, Val.res r)] "commodities" := by
    intro v hv
    simp only [List.mem_singleton, Prod.mk.injEq] at hv
    exact hc hv.1.symm
  have hn : names [(n, Val.res r)] = [(n, Val.res r)] := by simp [names, hp, hx]
  have hq : normReq (.map [(n, .res r)]) = .ok ([(n, ⟨r, .num 1, .bool false⟩)], []) := by
    simp [normReq, asDict, lookup_of_lacks hl, hn, normLoop, normOne]
  refine ⟨⟨_, hq⟩, ?_⟩
  simp [reqPort, hq, addReqs, h]

example : reqPort (fun _ => 5) .material 7 (.map [("uox", .res ⟨.product, 0, 10⟩)]) =
    .error .undefined := rfl

/-- `None` for the requests raises `TypeError`, while `None` for the bids is accepted
(`agents.pyx:605-607,643-644`). -/
theorem C122_fails_none (oq : ℕ → ℚ) (k : Kind) (t : ℕ) :
    getRequests oq k t .none = .error .type ∧ getBids oq k t .none = .ok [] := ⟨rfl, rfl⟩

/-! ## Bids -/

/-- A bid portfolio becomes the C++ portfolio with these bids. -/
theorem C122_bids {oq : ℕ → ℚ} {k : Kind} {t : ℕ} {v : Val} {os : List Offer} {caps : List ℚ}
    (h : Spec.BidPortfolio k v os caps) (hq : ∀ o ∈ os, 0 < o.res.qty) (hc : ∀ c ∈ caps, 0 < c) :
    ∃ s, bidPort oq k t v = .ok s ∧ Offers oq t os caps s := by
  cases h with
  | list hl => exact bidPort_of_std hl rfl hq hc
  | dict hk hb hl hcap =>
    apply bidPort_of_std _ _ hq hc
    · simpa only [bidParts, lookup_of_mem hk hb, asSeq] using hl
    · simpa only [bidParts, lookup_of_mem hk hb] using constrs_of_caps hk hcap
  | dictMap hk hb hl hcap =>
    apply bidPort_of_std _ _ hq hc
    · simpa only [bidParts, lookup_of_mem hk hb, asSeq] using List.Forall₂.cons hl .nil
    · simpa only [bidParts, lookup_of_mem hk hb] using constrs_of_caps hk hcap
  | dictReq hk hb hl hcap =>
    apply bidPort_of_std _ _ hq hc
    · simpa only [bidParts, lookup_of_mem hk hb, asSeq] using List.Forall₂.cons hl .nil
    · simpa only [bidParts, lookup_of_mem hk hb] using constrs_of_caps hk hcap
  | bid hl hb =>
    apply bidPort_of_std _ _ hq hc
    · simpa only [bidParts, lookup_of_lacks hl] using List.Forall₂.cons hb .nil
    · simp only [bidParts, lookup_of_lacks hl, List.map_nil]
  | request hb =>
    apply bidPort_of_std _ _ hq hc
    · simpa only [bidParts, asSeq] using List.Forall₂.cons hb .nil
    · rfl

/-- A request for ten units. -/
def wanted : ReqObj := ⟨.material, 3, fuel⟩

/-- What the source of `pyagents.py` returns: a bid for each request and its capacity. -/
def offered : Val :=
  .map [("bids", .seq [.req wanted, .seq [.req wanted, .res mox],
    .map [("request", .req wanted), ("offer", .res mox), ("preference", .num 4)]]),
    ("constraints", .seq [.num 8])]

example : ∃ s, bidPort (fun _ => 5) .material 2 offered = .ok s ∧
    Offers (fun _ => 5) 2 [⟨wanted, fuel, some 1, false⟩, ⟨wanted, mox, some 1, false⟩,
      ⟨wanted, mox, some 4, false⟩] [8] s := by
  refine C122_bids (.dict (by unfold Keys; decide +kernel) List.mem_cons_self ?_ ?_) ?_ ?_
  · exact .cons (.request rfl rfl) (.cons (.pair rfl rfl) (.cons (.dict (by unfold Keys; decide +kernel)
      (by simp) (by simp) (Or.inr ⟨.num 4, by simp, .num 4⟩) (Or.inl ⟨by simp [Lacks], rfl⟩) rfl rfl) .nil))
  · exact Or.inr (Or.inr ⟨_, by simp, rfl⟩)
  · simp [fuel, mox]
  · simp

/-- An agent may return one bid portfolio as a dict, or a list of portfolios. -/
theorem C122_many_bids (oq : ℕ → ℚ) (k : Kind) (t : ℕ) :
    (∀ d s, bidPort oq k t (.map d) = .ok s → getBids oq k t (.map d) = .ok [s]) ∧
    (∀ l ss, List.Forall₂ (fun v s => bidPort oq k t v = .ok s) l ss →
      getBids oq k t (.seq l) = .ok ss) := by
  constructor
  · intro d s h
    simp [getBids, bidPorts, h]
  · intro l ss h
    simp only [getBids, iter]
    induction h with
    | nil => rfl
    | cons h _ ih => simp only [bidPorts, h, ih]

example : (getBids (fun _ => 5) .material 7 (.seq [offered, offered])).toOption.map List.length =
    some 2 := by decide +kernel

/-! ### What fails -/

/-- The preference of the trade between a bid and its request once the bid is in the exchange. -/
def tradePref (c : Ctx) (b : ℕ) : Option ℚ :=
  (((c.addBid b).prefs (c.req (c.bid b).request).requester).getD fun _ _ => none) (c.bid b).request b

/-- A bid that says nothing about its preference should be worth what the requester said, as for
agents written in C++ (`bid_portfolio.h:79-83`, `exchange_context.h:92-94`). -/
def C122_statement_preference : Prop :=
  ∀ (oq : ℕ → ℚ) (k : Kind) (t : ℕ) (r : ReqObj) (s : BSt) (c : Ctx) (b : ℕ),
    bidPort oq k t (.seq [.req r]) = .ok s → c.bid b = s.obj 0 → c.prefs = (fun _ => none) →
    tradePref c b = some (c.req r.id).pref

/-- It is worth 1 whatever the requester said: `normalize_bid_portfolio` puts 1 where C++ puts NaN
(`lib.pyx:1882-1883`). -/
theorem C122_fails_preference_value {oq : ℕ → ℚ} {k : Kind} {t : ℕ} {r : ReqObj} {s : BSt} {c : Ctx}
    {b : ℕ} (h : bidPort oq k t (.seq [.req r]) = .ok s) (hb : c.bid b = s.obj 0)
    (hp : c.prefs = fun _ => none) : tradePref c b = some 1 := by
  simp only [bidPort, bidParts, asSeq, normBids, normBid, addBids] at h
  split_ifs at h with h1
  simp only [toDouble, BSt.step, BP.addBid, BP.verify, BSt.init, BP.empty] at h
  split_ifs at h with h2
  · simp only [addBidCons, Except.ok.injEq] at h
    rw [← h] at hb
    simp only [if_true] at hb
    simp [tradePref, Ctx.addBid, hb, hp, insertPref]

/-- A context with one request of preference 5. -/
def five : Ctx where
  req := fun _ => ⟨10, 7, "uox", 5, false, 0⟩
  bid := fun _ => ⟨3, 0, 10, 2, some 1, false, 0⟩
  rp := fun _ => RP.empty
  bp := fun _ => BP.empty
  requests := []
  bids := []
  requesters := []
  bidders := []
  commodRequests := fun _ => []
  bidsByRequest := fun _ => []
  prefs := fun _ => none
  manager := fun _ => 0

/-- The intended property fails: the request has preference 5, the trade preference 1. -/
theorem C122_fails_preference : ¬ C122_statement_preference := by
  intro h
  have hb : ∃ s, bidPort (fun _ => 5) .material 2 (.seq [.req wanted]) = .ok s ∧
      Offers (fun _ => 5) 2 [⟨wanted, fuel, some 1, false⟩] [] s :=
    C122_bids (.list (.cons (.request rfl rfl) .nil)) (by simp [fuel]) (by simp)
  obtain ⟨s, hs, ho⟩ := hb
  have hobj := ho.obj 0 _ rfl
  have h1 := h _ _ _ _ s five 0 hs (by rw [hobj]; rfl) rfl
  have h2 := C122_fails_preference_value (c := five) (b := 0) hs (by rw [hobj]; rfl) rfl
  rw [h1] at h2
  simp [five] at h2

/-- What remains: a bid with NaN as preference is worth what the requester said, and a bid with a
preference is worth that. -/
theorem C122_preference_partial (c : Ctx) (b : ℕ) (hp : c.prefs = fun _ => none) :
    ((c.bid b).pref = none → tradePref c b = some (c.req (c.bid b).request).pref) ∧
    (∀ x, (c.bid b).pref = some x → tradePref c b = some x) := by
  constructor
  · intro h
    simp [tradePref, Ctx.addBid, h, hp, insertPref]
  · intro x h
    simp [tradePref, Ctx.addBid, h, hp, insertPref]

/-- Such a bid can be written in Python. -/
example : ∃ s, bidPort (fun _ => 5) .material 2 (.map [("request", .req wanted), ("offer", .res mox),
    ("preference", .nan)]) = .ok s ∧ Offers (fun _ => 5) 2 [⟨wanted, mox, none, false⟩] [] s :=
  C122_bids (.bid (by simp [Lacks]) (.dictNan (by unfold Keys; decide +kernel) (by simp) (by simp)
    (by simp) (Or.inl ⟨by simp [Lacks], rfl⟩) rfl rfl)) (by simp [mox]) (by simp)

/-- A portfolio that is one bid written as a pair is taken for two bids: the resource is not a bid
(`lib.pyx:1867-1868,1900`). -/
theorem C122_fails_pair (oq : ℕ → ℚ) (k : Kind) (t : ℕ) (r : ReqObj) (o : Res) :
    bidPort oq k t (.seq [.req r, .res o]) = .error .type := rfl

/-- Nothing checks that a bid has a request and an offer: what is cast is `None`
(`lib.pyx:1882-1891`, `gentypesystem.py:2208-2212`). -/
theorem C122_fails_missing (oq : ℕ → ℚ) (k : Kind) (t : ℕ) (r : ReqObj) (o : Res) :
    bidPort oq k t (.map [("request", .req r)]) = .error .undefined ∧
    bidPort oq k t (.map [("offer", .res o)]) = .error .undefined ∧
    bidPort oq k t (.map []) = .error .undefined := ⟨rfl, rfl, rfl⟩

/-- A tuple in a list of bids that is not a pair raises `ValueError`. -/
theorem C122_bids_tuples (oq : ℕ → ℚ) (k : Kind) (t : ℕ) {vs : List Val} (h : vs.length ≠ 2) (l : List Val) :
    bidPort oq k t (.seq (.seq vs :: l)) = .error .value := by
  rcases vs with _ | ⟨a, _ | ⟨b, _ | ⟨c, vs⟩⟩⟩
  · rfl
  · rfl
  · simp at h
  · rfl

example : [Val.none, .none, .none].length ≠ 2 := by simp

/-- Nothing checks the classes of the request and the offer (`gentypesystem.py:2208-2212`). -/
theorem C122_fails_bid_kind (oq : ℕ → ℚ) {k : Kind} (t : ℕ) {r : ReqObj} {o : Res}
    (h : o.kind ≠ k ∨ r.kind ≠ k) :
    bidPort oq k t (.map [("request", .req r), ("offer", .res o)]) = .error .undefined := by
  simp [bidPort, bidParts, normBids, normBid, List.lookup, addBids, h]

example : wanted.kind ≠ .product := by decide

/-- A capacity that is not positive is refused. -/
theorem C122_bids_capacity {oq : ℕ → ℚ} {k : Kind} {t : ℕ} {d : Dict} {bs : List Val} {ls : BSt} {c : ℚ}
    (hk : Keys d) (h : ("bids", .seq bs) ∈ d) (hc : ("constraints", .num c) ∈ d)
    (hb : bidPort oq k t (.seq bs) = .ok ls) (h0 : c ≤ 0) :
    bidPort oq k t (.map d) = .error .value := by
  have h1 : constrs d = [.num c] := by
    unfold constrs
    rw [lookup_of_mem hk hc]
    rfl
  simp only [bidPort, bidParts, asSeq, lookup_of_mem hk h, h1] at hb ⊢
  cases hn : normBids bs with
  | error e => rw [hn] at hb; simp at hb
  | ok l =>
    rw [hn] at hb
    simp only at hb ⊢
    cases ha : addBids k t BSt.init l with
    | error e => rw [ha] at hb; simp at hb
    | ok s =>
      simp only [addBidCons, toDouble, BSt.step, mkCon, if_pos h0]

example : Keys [("bids", .seq [.req wanted]), ("constraints", .num 0)] ∧
    ∃ ls, bidPort (fun _ => 5) .material 7 (.seq [.req wanted]) = .ok ls :=
  ⟨by unfold Keys; decide +kernel, _, rfl⟩

end Cyclus.PyTrade.Props
