import Verif.Model.Translator

/-!
# Vocabulary for the properties of the exchange translator
-/

namespace Cyclus.Dre.Spec

/-- All bids of an exchange, portfolio by portfolio. -/
def allBids (c : Ctx) : List ℕ := c.bids.flatMap fun p => (c.bp p).bids

/-- The preference the requester has for a bid (0 if there is no entry). -/
def prefOf (c : Ctx) (b : ℕ) : ℚ :=
  ((c.prefs (c.req (c.bid b).request).requester).bind fun m => m (c.bid b).request b).getD 0

/-- An exchange context as traders and `ExchangeContext` build it: no portfolio is there twice, a
portfolio lists its requests (bids) once and each of them points back to it, every bid answers a
request of the exchange whose requester has preferences, every request has a coefficient, and the
converters do not throw. -/
structure Valid (c : Ctx) : Prop where
  requests : c.requests.Nodup
  bids : c.bids.Nodup
  reqsNodup : ∀ p ∈ c.requests, (c.rp p).reqs.Nodup
  reqsOwn : ∀ p ∈ c.requests, ∀ r ∈ (c.rp p).reqs, (c.req r).portfolio = p
  coeff : ∀ p ∈ c.requests, ∀ r ∈ (c.rp p).reqs, (c.rp p).coeffs r ≠ none
  bidsNodup : ∀ p ∈ c.bids, (c.bp p).bids.Nodup
  bidsOwn : ∀ p ∈ c.bids, ∀ b ∈ (c.bp p).bids, (c.bid b).portfolio = p
  target : ∀ b ∈ allBids c, (c.req (c.bid b).request).portfolio ∈ c.requests ∧
    (c.bid b).request ∈ (c.rp (c.req (c.bid b).request).portfolio).reqs
  known : ∀ b ∈ allBids c, c.prefs (c.req (c.bid b).request).requester ≠ none
  convR : ∀ b ∈ allBids c, ∀ k ∈ (c.rp (c.req (c.bid b).request).portfolio).cons,
    k.conv (c.bid b).request b ≠ none
  convB : ∀ b ∈ allBids c, ∀ k ∈ (c.bp (c.bid b).portfolio).cons, k.conv (c.bid b).request b ≠ none

end Cyclus.Dre.Spec
