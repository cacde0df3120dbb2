import Verif.Api.BindProps
import Verif.Api.Keys

/-!
# Objects that share their metadata (C47)

`Verif.Api.Keys` shows that bucket and name are determined by the key as long as the name has no `/`.  The parameter
of a route has none, but the name of a request to store or read an object need not be the parameter of the route: gin looks
for the Go name of the field in the query (C85).  So a name with `/` does reach the metadata server.
-/

namespace Verif.Api.Bind

open Verif Verif.Meta

/-- **C47** as stated, for the objects that requests can name: operations on one leave the other as it is. -/
def KeysApart : Prop :=
  ∀ (r r' : Request) (p p' : Put), OnlyName r → OnlyName r' → bindPut r = some p → bindPut r' = some p' →
    (p.bucket, p.name) ≠ (p'.bucket, p'.name) → ∀ (s : Store) (ops : List Op),
      (∀ op ∈ ops, opTarget op = some (objectKey p.bucket p.name)) →
      (readsOf (run s ops).2 (objectKey p'.bucket p'.name)).info = (readsOf s (objectKey p'.bucket p'.name)).info

/-- Every request to store the object `n` in the bucket `b/m` has a counterpart that is for the object `m/n` of the bucket `b`,
and both have the same key: the second is the first with two query parameters. -/
theorem C47_shared (r : Request) (hp : OnlyName r) (h1 : r.header "Store".toList = none)
    (h2 : r.header "Compress".toList = none) (h3 : r.query "Body".toList = none) (p : Put) (h : bindPut r = some p)
    (b m : Str) (hb : b ≠ []) (hm : p.bucket = b ++ '/' :: m) (hd : p.digest ≠ []) :
    ∃ p', bindPut (withQuery r [("Name".toList, m ++ '/' :: p.name), ("Bucket".toList, b), ("Hash".toList, p.digest)]) =
        some p' ∧ p'.bucket = b ∧ p'.name = m ++ '/' :: p.name ∧ p'.bucket ≠ p.bucket ∧
      objectKey p'.bucket p'.name = objectKey p.bucket p.name := by
  refine ⟨_, C85_put_elsewhere r hp h1 h2 h3 p h (m ++ '/' :: p.name) b p.digest (by simp) hb hd, rfl, rfl, ?_, ?_⟩
  · rw [hm]
    intro e
    have := congrArg List.length e
    simp at this
  · simp [objectKey, hm]

/-- The same for reading. -/
theorem C47_shared_get (r : Request) (hp : OnlyName r) (h1 : r.header "Version".toList = none)
    (h3 : r.query "Range".toList = none) (p : Get) (h : bindGet r = some p) (b m : Str) (hb : b ≠ [])
    (hm : p.bucket = b ++ '/' :: m) :
    ∃ p', bindGet (withQuery r [("Name".toList, m ++ '/' :: p.name), ("Bucket".toList, b)]) = some p' ∧
      p'.bucket = b ∧ p'.name = m ++ '/' :: p.name ∧ objectKey p'.bucket p'.name = objectKey p.bucket p.name := by
  refine ⟨_, C85_get_elsewhere r hp h1 h3 p h (m ++ '/' :: p.name) b (by simp) hb, rfl, rfl, ?_⟩
  simp [objectKey, hm]

/-- `PUT /objects/c` in the bucket `a/b`. -/
def exPutDeep : Request where
  param k := if k = "name".toList then some ['c'] else none
  header := table [(sBucket, [['a', '/', 'b']]), ("Digest".toList, [['d']])]
  query := table []

/-- `PUT /objects/c?Name=b/c` in the bucket `a`. -/
def exPutFlat : Request where
  param k := if k = "name".toList then some ['c'] else none
  header := table [(sBucket, [['a']]), ("Digest".toList, [['d']])]
  query := table [(sName, [['b', '/', 'c']])]

example : OnlyName exPutDeep ∧ exPutDeep.header "Store".toList = none ∧ exPutDeep.header "Compress".toList = none ∧
    exPutDeep.query "Body".toList = none ∧ bindPut exPutDeep = some ⟨['c'], ['a', '/', 'b'], ['d'], false, 0⟩ :=
  ⟨fun _ hk => if_neg hk, by decide, by decide, by decide, by decide⟩

/-- The two requests are for different objects of different buckets and store the same metadata. -/
theorem C47_statement_fails : ¬ KeysApart := by
  intro h
  have h1 := h exPutDeep exPutFlat ⟨['c'], ['a', '/', 'b'], ['d'], false, 0⟩ ⟨['b', '/', 'c'], ['a'], ['d'], false, 0⟩
    (fun _ hk => if_neg hk) (fun _ hk => if_neg hk) (by decide) (by decide) (by decide) .empty
    [.addMeta (objectKey ['a', '/', 'b'] ['c']) (sampleMeta 1)]
    (by intro op hop; rw [List.mem_singleton.1 hop]; rfl)
  have h2 : (Except.ok (sampleMeta 1) : Except Err Metadata) = .error .notFound := h1
  cases h2

end Verif.Api.Bind
