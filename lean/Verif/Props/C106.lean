import Verif.Model.Fetch

/-! # C106: fetching a schema

`fetchSchema` gives the body of the response.  It always closes the body, and failures of the transfer are reported.  A response with
another status than 200 is not: it is taken for an empty schema. -/

namespace Xgen.C106

/-- A body that delivers some bytes, in one or more pieces, up to the end. -/
inductive Delivers : List (Octets × Reported) → Octets → Prop
  | done : Delivers [] []
  | last (d : Octets) (rs : List (Octets × Reported)) : Delivers ((d, .eof) :: rs) d
  | more {d : Octets} {rs : List (Octets × Reported)} {b : Octets} : Delivers rs b → Delivers ((d, .nothing) :: rs) (d ++ b)

/-- A body that fails after some bytes. -/
inductive Breaks : List (Octets × Reported) → Octets → Prop
  | now (d : Octets) (rs : List (Octets × Reported)) : Breaks ((d, .failure) :: rs) d
  | later {d : Octets} {rs : List (Octets × Reported)} {b : Octets} : Breaks rs b → Breaks ((d, .nothing) :: rs) (d ++ b)

/-- What is done with bodies is in order: each is opened, read and closed once, and nothing is left open. -/
def Orderly (l : List BodyEvent) : Prop := l = [] ∨ ∃ k, l = .opened :: List.replicate k .read ++ [.closed]

theorem readAll_spec (rs : List (Octets × Reported)) : ∃ b k, (∃ e, readAll rs = (b, e, List.replicate k .read) ∧
    ((e = none ∧ Delivers rs b) ∨ (e = some .read ∧ Breaks rs b))) := by
  induction rs with
  | nil => exact ⟨[], 1, none, rfl, .inl ⟨rfl, .done⟩⟩
  | cons r rs ih =>
    obtain ⟨d, s⟩ := r
    cases s with
    | nothing =>
      obtain ⟨b, k, e, h1, h2⟩ := ih
      refine ⟨d ++ b, k + 1, e, by simp [readAll, h1, List.replicate_succ], ?_⟩
      exact h2.imp (fun h => ⟨h.1, .more h.2⟩) fun h => ⟨h.1, .later h.2⟩
    | eof => exact ⟨d, 1, none, rfl, .inl ⟨rfl, .last d rs⟩⟩
    | failure => exact ⟨d, 1, some .read, rfl, .inr ⟨rfl, .now d rs⟩⟩

theorem delivers_one {rs : List (Octets × Reported)} {b b' : Octets} (h : Delivers rs b) (h' : Delivers rs b') : b = b' := by
  induction h generalizing b' with
  | done => cases h'; rfl
  | last => cases h'; rfl
  | more _ ih => cases h' with | more h' => rw [ih h']

theorem delivers_not_breaks {rs : List (Octets × Reported)} {b b' : Octets} (h : Delivers rs b) (h' : Breaks rs b') : False := by
  induction h generalizing b' with
  | done => cases h'
  | last => cases h'
  | more _ ih => cases h' with | later h' => exact ih h'

variable {get : Str → Option Response} {url : Str}

/-- What `fetchSchema` gives without an error: the body that is delivered, or nothing at all for any other status than 200. -/
theorem fetched (b : Octets) : ((fetchSchema get url).1 = b ∧ (fetchSchema get url).2.1 = none) ↔
    ∃ resp, get url = some resp ∧ ((resp.status = 200 ∧ Delivers resp.reads b) ∨ (resp.status ≠ 200 ∧ b = [])) := by
  unfold fetchSchema
  cases hg : get url with
  | none => simp
  | some resp =>
    simp only [Option.some.injEq, exists_eq_left']
    by_cases hs : resp.status = 200
    · obtain ⟨b', k, e, h1, h2⟩ := readAll_spec resp.reads
      rw [if_pos hs, h1]
      simp only [hs, ne_eq, not_true_eq_false, true_and, false_and, or_false]
      constructor
      · rintro ⟨rfl, rfl⟩
        rcases h2 with h2 | h2
        · exact h2.2
        · cases h2.1
      · intro h
        rcases h2 with h2 | h2
        · exact ⟨delivers_one h2.2 h, h2.1⟩
        · exact (delivers_not_breaks h h2.2).elim
    · rw [if_neg hs]
      simp only [hs, false_and, not_false_eq_true, true_and, false_or, ne_eq, and_true]
      exact ⟨Eq.symm, Eq.symm⟩

/-- When there is an error: no response, or a body with status 200 that breaks off. -/
theorem reported : (fetchSchema get url).2.1 ≠ none ↔
    get url = none ∨ ∃ resp b, get url = some resp ∧ resp.status = 200 ∧ Breaks resp.reads b := by
  unfold fetchSchema
  cases hg : get url with
  | none => simp
  | some resp =>
    simp only [Option.some.injEq, reduceCtorEq, false_or]
    by_cases hs : resp.status = 200
    · obtain ⟨b', k, e, h1, h2⟩ := readAll_spec resp.reads
      rw [if_pos hs, h1]
      constructor
      · intro he
        rcases h2 with h2 | h2
        · exact absurd h2.1 he
        · exact ⟨resp, b', rfl, hs, h2.2⟩
      · rintro ⟨resp', b, rfl, -, hb⟩ he
        rcases h2 with h2 | h2
        · exact delivers_not_breaks h2.2 hb
        · rw [h2.1] at he; cases he
    · rw [if_neg hs]
      constructor
      · intro h; exact absurd rfl h
      · rintro ⟨resp', b, rfl, h, -⟩
        exact absurd h hs

/-- C106, first part: whatever the server does, no body is left open, and none is touched after it was closed. -/
theorem closed : Orderly (fetchSchema get url).2.2 := by
  unfold fetchSchema
  cases hg : get url with
  | none => exact .inl rfl
  | some resp =>
    right
    dsimp only
    by_cases hs : resp.status = 200
    · obtain ⟨b', k, e, h1, h2⟩ := readAll_spec resp.reads
      rw [if_pos hs, h1]
      exact ⟨k, rfl⟩
    · rw [if_neg hs]; exact ⟨0, rfl⟩

/-- C106, second part, for responses with status 200: exactly the bytes that were sent, however they are cut into pieces, or an error.
(Missing: other statuses, for which it is false, see `not_found`.) -/
theorem body_partial {resp : Response} (hg : get url = some resp) (hs : resp.status = 200) (b : Octets) :
    ((fetchSchema get url).1 = b ∧ (fetchSchema get url).2.1 = none) ↔ Delivers resp.reads b := by
  rw [fetched]
  constructor
  · rintro ⟨resp', h1, h2⟩
    rw [hg] at h1
    cases h1
    rcases h2 with h2 | h2
    · exact h2.2
    · exact absurd hs h2.1
  · exact fun h => ⟨resp, hg, .inl ⟨hs, h⟩⟩

/-- C106 is false for other statuses: a page that is not found is an empty schema, without an error. -/
theorem not_found : ∃ resp : Response, resp.status = 404 ∧ Delivers resp.reads [78, 111] ∧
    (fetchSchema (fun _ => some resp) c!"http://host/a.xsd").1 = [] ∧ (fetchSchema (fun _ => some resp) c!"http://host/a.xsd").2.1 = none :=
  ⟨⟨404, [([78, 111], .eof)]⟩, rfl, .last _ _, rfl, rfl⟩

/-! ## Examples -/

/-- In two pieces. -/
example : fetchSchema (fun u => if u = c!"http://host/a.xsd" then some ⟨200, [([60, 97], .nothing), ([47, 62], .eof)]⟩ else none) c!"http://host/a.xsd" =
    ([60, 97, 47, 62], none, [.opened, .read, .read, .closed]) := by decide
example : Delivers [([60, 97], .nothing), ([47, 62], .eof)] [60, 97, 47, 62] := .more (d := [60, 97]) (.last [47, 62] [])
/-- A failure in the middle: what was read is given, too. -/
example : fetchSchema (fun _ => some ⟨200, [([60], .nothing), ([97], .failure), ([62], .eof)]⟩) c!"u" = ([60, 97], some .read, [.opened, .read, .read, .closed]) := by decide
/-- No response. -/
example : fetchSchema (fun _ => none) c!"u" = ([], some .get, []) := by decide

end Xgen.C106
