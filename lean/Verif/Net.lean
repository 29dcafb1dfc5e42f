import Verif.Props.Conn
import Verif.Refine
/-
The mock with its clients: what lies between them. The connections of the mock are TCP connections (/repo/kafka-mock.go:117, 129), of which the mock uses
`Read` (/repo/kafka-client.go:103-105) and `Write` (/repo/kafka-message.go:33-48). Assumed of TCP: in each direction a connection is a stream of bytes, of which none is lost,
doubled, changed or overtaken by another; after a failed write, of which a part may have been sent, nothing more can be written.
What the clients do is left open. In contrast to `Sys.Step`, a read gives what the client has sent, and `kc.stopping` is false (only `kafkaClient.Close` sets it, which
the mock does not call; with `Close`: `CloseClient.lean`).
-/
namespace KM
open Spec Props

/-- A connection between a client and the mock: the bytes that the client has sent and the mock has not read, those that the mock has written and the client has not
received, and whether a write has failed. -/
structure Link where
  up : Bytes
  down : Bytes
  broken : Bool
deriving DecidableEq, Repr

/-- The mock and its connections. A client may send as soon as the connection exists, which is before the mock has accepted it. -/
structure Net where
  sys : Sys
  links : Nat → Link

def Net.new (sv : Server) (clock : Int) : Net := ⟨Sys.new sv clock, fun _ => ⟨[], [], false⟩⟩

/-- What happens. -/
inductive NEv where
  /-- something in the mock -/
  | mock (e : SEv)
  /-- the client of connection `c` sends bytes -/
  | send (c : Nat) (b : Bytes)
  /-- the client of connection `c` receives bytes -/
  | receive (c : Nat) (b : Bytes)

def setLink (L : Nat → Link) (c : Nat) (l : Link) : Nat → Link := fun d => if d = c then l else L d

/-- What a step of the mock has to do with its connections. `Read` with the buffer of /repo/kafka-client.go:103 gives 1 to 8192 of the bytes that wait; a write that fails may
have sent some of its bytes. -/
def Carries : SEv → (Nat → Link) → (Nat → Link) → Prop
  | .conn c .recv (.data b), L, L' => b ≠ [] ∧ b.length ≤ 8192 ∧ ∃ rest, (L c).up = b ++ rest ∧ L' = setLink L c { L c with up := rest }
  | .conn c (.write b) true, L, L' => (L c).broken = false ∧ L' = setLink L c { L c with down := (L c).down ++ b }
  | .conn c (.write b) false, L, L' => ((L c).broken = true ∧ L' = L) ∨
      ((L c).broken = false ∧ ∃ x y, b = x ++ y ∧ y ≠ [] ∧ L' = setLink L c { L c with down := (L c).down ++ x, broken := true })
  | .conn _ .isStopping r, L, L' => r = false ∧ L' = L
  | _, L, L' => L' = L

inductive Net.Step : Net → NEv → Net → Prop where
  | mock {n : Net} {e : SEv} {s : Sys} {L : Nat → Link} (h : Sys.Step n.sys e s) (hl : Carries e n.links L) : Step n (.mock e) ⟨s, L⟩
  | send {n : Net} (c : Nat) (b : Bytes) : Step n (.send c b) { n with links := setLink n.links c { n.links c with up := (n.links c).up ++ b } }
  | receive {n : Net} {c : Nat} {b rest : Bytes} (h : (n.links c).down = b ++ rest) :
      Step n (.receive c b) { n with links := setLink n.links c { n.links c with down := rest } }

inductive Net.Run : Net → List NEv → Net → Prop where
  | nil (n : Net) : Run n [] n
  | cons {n n1 n2 : Net} {e : NEv} {es : List NEv} (h : Step n e n1) (hs : Run n1 es n2) : Run n (e :: es) n2

/-- What happens in the mock. -/
def mocks (tr : List NEv) : List SEv := tr.filterMap fun
  | .mock e => some e
  | _ => none

/-- The bytes that the client of connection `c` has sent. -/
def asked (c : Nat) : List NEv → Bytes
  | .send d b :: tr => if d = c then b ++ asked c tr else asked c tr
  | _ :: tr => asked c tr
  | [] => []

/-- The bytes that the client of connection `c` has received. -/
def got (c : Nat) : List NEv → Bytes
  | .receive d b :: tr => if d = c then b ++ got c tr else got c tr
  | _ :: tr => got c tr
  | [] => []

/-- The bytes that a connection has read. -/
def readIn : List REv → Bytes
  | ⟨.recv, .data b⟩ :: l => b ++ readIn l
  | _ :: l => readIn l
  | [] => []

theorem mocks_append (a b : List NEv) : mocks (a ++ b) = mocks a ++ mocks b := List.filterMap_append ..

theorem mocks_cons (e : NEv) (es : List NEv) : mocks (e :: es) = mocks [e] ++ mocks es := mocks_append [e] es

theorem asked_append (c : Nat) (a b : List NEv) : asked c (a ++ b) = asked c a ++ asked c b := by
  induction a with
  | nil => rfl
  | cons e a ih =>
    cases e with
    | send d x =>
      show (if d = c then x ++ asked c (a ++ b) else asked c (a ++ b)) = (if d = c then x ++ asked c a else asked c a) ++ asked c b
      split <;> simp [ih]
    | _ => exact ih

theorem got_append (c : Nat) (a b : List NEv) : got c (a ++ b) = got c a ++ got c b := by
  induction a with
  | nil => rfl
  | cons e a ih =>
    cases e with
    | receive d x =>
      show (if d = c then x ++ got c (a ++ b) else got c (a ++ b)) = (if d = c then x ++ got c a else got c a) ++ got c b
      split <;> simp [ih]
    | _ => exact ih

theorem readIn_append (a b : List REv) : readIn (a ++ b) = readIn a ++ readIn b := by
  induction a with
  | nil => rfl
  | cons e a ih =>
    obtain ⟨x, r⟩ := e
    cases x with
    | recv => cases r <;> simp [readIn, ih]
    | _ => exact ih

theorem actsOf_self {c : Nat} {a : Act} {r : a.Resp} : actsOf c [.conn c a r] = [⟨a, r⟩] := by simp [actsOf]

theorem actsOf_else {c d : Nat} {a : Act} {r : a.Resp} (h : d ≠ c) : actsOf c [.conn d a r] = [] := by simp [actsOf, h]

theorem Net.Run.append {n n1 n2 : Net} {a b : List NEv} (h1 : Run n a n1) (h2 : Run n1 b n2) : Run n (a ++ b) n2 := by
  induction h1 with
  | nil => exact h2
  | cons h _ ih => exact .cons h (ih h2)

theorem Net.Run.split {n n2 : Net} {a b : List NEv} (h : Run n (a ++ b) n2) : ∃ n1, Run n a n1 ∧ Run n1 b n2 := by
  induction a generalizing n with
  | nil => exact ⟨n, .nil n, h⟩
  | cons e a ih =>
    cases h with
    | cons h hs =>
      obtain ⟨n1, h1, h2⟩ := ih hs
      exact ⟨n1, .cons h h1, h2⟩

/-- The mock in a run with its clients is a run of the mock. -/
theorem Net.Run.sys {n n' : Net} {tr : List NEv} (h : Run n tr n') : Sys.Run n.sys (mocks tr) n'.sys := by
  induction h with
  | nil => exact .nil _
  | cons h _ ih =>
    cases h with
    | mock h _ => exact .cons h ih
    | send => exact ih
    | receive => exact ih

/-- What a step of the mock does with one connection. -/
inductive LinkStep : Link → List REv → Link → Prop where
  | none (k : Link) : LinkStep k [] k
  | recv {k : Link} {b rest : Bytes} (hb : b ≠ []) (h : k.up = b ++ rest) : LinkStep k [⟨.recv, .data b⟩] { k with up := rest }
  | write {k : Link} (b : Bytes) (h : k.broken = false) : LinkStep k [⟨.write b, true⟩] { k with down := k.down ++ b }
  | fails {k : Link} {b x y : Bytes} (h : k.broken = false) (hb : b = x ++ y) (hy : y ≠ []) : LinkStep k [⟨.write b, false⟩] { k with down := k.down ++ x, broken := true }
  | failed {k : Link} (b : Bytes) (h : k.broken = true) : LinkStep k [⟨.write b, false⟩] k
  | other {k : Link} (a : Act) (r : a.Resp) (h1 : ∀ b, (⟨a, r⟩ : REv) ≠ ⟨.recv, .data b⟩) (h2 : ∀ b, a ≠ .write b) (h3 : (⟨a, r⟩ : REv) ≠ ⟨.isStopping, true⟩) :
      LinkStep k [⟨a, r⟩] k

theorem carries_at {e : SEv} {L L' : Nat → Link} (h : Carries e L L') (c : Nat) : LinkStep (L c) (actsOf c [e]) (L' c) := by
  have other : ∀ {d : Nat} {a : Act} {r : a.Resp}, L' = L → (∀ b, (⟨a, r⟩ : REv) ≠ ⟨.recv, .data b⟩) → (∀ b, a ≠ .write b) → (⟨a, r⟩ : REv) ≠ ⟨.isStopping, true⟩ →
      LinkStep (L c) (actsOf c [.conn d a r]) (L' c) := by
    intro d a r e h1 h2 h3
    subst e
    by_cases hd : d = c
    · subst hd; rw [actsOf_self]; exact .other a r h1 h2 h3
    · rw [actsOf_else hd]; exact .none _
  have set_self : ∀ {k : Link}, setLink L c k c = k := by intro k; simp [setLink]
  have set_else : ∀ {k : Link} {d : Nat}, d ≠ c → setLink L d k c = L c := by intro k d h; simp [setLink, Ne.symm h]
  cases e with
  | conn d a r =>
    cases a with
    | recv =>
      cases r with
      | data b =>
        obtain ⟨h1, _, rest, h2, rfl⟩ := h
        by_cases hd : d = c
        · subst hd; rw [actsOf_self, set_self]; exact .recv h1 h2
        · rw [actsOf_else hd, set_else hd]; exact .none _
      | _ => exact other h nofun nofun nofun
    | write b =>
      cases r with
      | true =>
        obtain ⟨h1, rfl⟩ := h
        by_cases hd : d = c
        · subst hd; rw [actsOf_self, set_self]; exact .write b h1
        · rw [actsOf_else hd, set_else hd]; exact .none _
      | false =>
        rcases h with ⟨h1, rfl⟩ | ⟨h1, x, y, h2, h3, rfl⟩
        · by_cases hd : d = c
          · subst hd; rw [actsOf_self]; exact .failed b h1
          · rw [actsOf_else hd]; exact .none _
        · by_cases hd : d = c
          · subst hd; rw [actsOf_self, set_self]; exact .fails h1 h2 h3
          · rw [actsOf_else hd, set_else hd]; exact .none _
    | isStopping =>
      obtain ⟨rfl, rfl⟩ := h
      exact other rfl nofun nofun nofun
    | _ => exact other h nofun nofun nofun
  | _ => cases (show L' = L from h); exact .none _

/-- What a connection has read and what it has not read yet is what its client has sent. -/
theorem Net.Run.asked {n n' : Net} {tr : List NEv} (h : Run n tr n') (c : Nat) :
    (n.links c).up ++ asked c tr = readIn (actsOf c (mocks tr)) ++ (n'.links c).up := by
  induction h with
  | nil => simp [KM.asked, mocks, actsOf, readIn]
  | @cons n n1 n2 e es h _ ih =>
    cases h with
    | send d b =>
      show (n.links c).up ++ (if d = c then b ++ KM.asked c es else KM.asked c es) = _
      rw [show mocks (.send d b :: es) = mocks es from rfl, ← ih]
      simp only [setLink]
      by_cases hd : d = c
      · subst hd; simp
      · rw [if_neg hd, if_neg (fun e => hd e.symm)]
    | @receive d b rest hb =>
      show (n.links c).up ++ KM.asked c es = _
      rw [show mocks (.receive d b :: es) = mocks es from rfl, ← ih]
      simp only [setLink]
      by_cases hd : c = d
      · subst hd; simp
      · rw [if_neg hd]
    | @mock e s L h hl =>
      show (n.links c).up ++ KM.asked c es = _
      rw [show mocks (.mock e :: es) = e :: mocks es from rfl, actsOf_cons, readIn_append, List.append_assoc, ← ih, ← List.append_assoc]
      congr 1
      show (n.links c).up = _ ++ (L c).up
      have hc := carries_at hl c
      generalize actsOf c [e] = l, n.links c = k, L c = k' at hc
      cases hc with
      | recv _ h => rw [h]; simp [readIn]
      | other a r h1 => cases a with
        | recv => cases r with
          | data b => exact absurd rfl (h1 b)
          | _ => rfl
        | _ => rfl
      | _ => rfl

/-- What has been put on the way to the client by a connection that has done `l`: all that it has written; if a write failed, what was written before and some of that. -/
inductive Flow (l : List REv) : Bytes → Bool → Prop where
  | whole (h : AllSent l) : Flow l (sent l) false
  | broken {a t : List REv} {b x y : Bytes} (hl : l = a ++ ⟨.write b, false⟩ :: t) (ha : AllSent a) (hb : b = x ++ y) (hy : y ≠ []) : Flow l (sent a ++ x) true

theorem allSent_snoc {l : List REv} {e : REv} (h : AllSent l) (he : ∀ b, e ≠ ⟨.write b, false⟩) : AllSent (l ++ [e]) := fun b hb => by
  rcases List.mem_append.1 hb with hb | hb
  · exact h b hb
  · exact he b (List.mem_singleton.1 hb).symm

theorem Flow.step {l l' : List REv} {k k' : Link} {g : Bytes} (h : Flow l (g ++ k.down) k.broken) (hs : LinkStep k l' k') : Flow (l ++ l') (g ++ k'.down) k'.broken := by
  have quiet : ∀ {e : REv}, sent [e] = [] → (∀ b, e ≠ ⟨.write b, false⟩) → ∀ {f : Bytes} {b : Bool}, Flow l f b → Flow (l ++ [e]) f b := by
    intro e h1 h2 f b h
    cases h with
    | whole h =>
      have : sent l = sent (l ++ [e]) := by rw [sent_append, h1, List.append_nil]
      rw [this]
      exact .whole (allSent_snoc h h2)
    | broken hl ha hb hy => exact .broken (by rw [hl, List.append_assoc]; rfl) ha hb hy
  cases hs with
  | none => rw [List.append_nil]; exact h
  | recv => exact quiet rfl (fun _ e => by cases e) h
  | write b hk =>
    rw [hk] at h ⊢
    rw [← List.append_assoc]
    generalize g ++ k.down = f at h
    cases h with
    | whole h =>
      have := Flow.whole (allSent_snoc h (e := ⟨.write b, true⟩) nofun)
      rw [sent_append] at this
      simpa [sent] using this
  | @fails b x y hk hb hy =>
    rw [hk] at h
    show Flow _ (g ++ (k.down ++ x)) true
    rw [← List.append_assoc]
    generalize g ++ k.down = f at h
    cases h with
    | whole h => exact .broken rfl h hb hy
  | failed b hk =>
    rw [hk] at h ⊢
    generalize g ++ k.down = f at h
    cases h with
    | broken hl ha hb hy => exact .broken (by rw [hl, List.append_assoc]; rfl) ha hb hy
  | other a r h1 h2 h3 =>
    refine quiet ?_ (fun b e => ?_) h
    · cases a <;> first | rfl | exact absurd rfl (h2 _)
    · cases e; exact h2 _ rfl

/-- What a client has received and what is on the way to it is what the mock has put on the way. -/
theorem Net.Run.flow {n n' : Net} {tr : List NEv} (h : Run n tr n') (c : Nat) {l : List REv} {g : Bytes} (hf : Flow l (g ++ (n.links c).down) (n.links c).broken) :
    Flow (l ++ actsOf c (mocks tr)) (g ++ got c tr ++ (n'.links c).down) (n'.links c).broken := by
  induction h generalizing l g with
  | nil => simpa [got, mocks, actsOf] using hf
  | @cons n n1 n2 e es h _ ih =>
    cases h with
    | send d b =>
      refine ih (l := l) (g := g) ?_
      simp only [setLink]
      by_cases hd : c = d
      · subst hd; simpa using hf
      · rw [if_neg hd]; exact hf
    | @receive d b rest hb =>
      rw [show mocks (.receive d b :: es) = mocks es from rfl]
      by_cases hd : c = d
      · subst hd
        have := ih (l := l) (g := g ++ b) (by simpa [setLink, hb] using hf)
        simpa [got] using this
      · have := ih (l := l) (g := g) (by simpa [setLink, hd] using hf)
        simpa [got, Ne.symm hd] using this
    | @mock e s L h hl =>
      rw [show mocks (.mock e :: es) = e :: mocks es from rfl, actsOf_cons, ← List.append_assoc]
      exact ih (hf.step (carries_at hl c))

/-- No connection finds `kc.stopping` set. -/
theorem Net.Run.never_stopping {n n' : Net} {tr : List NEv} (h : Run n tr n') (c : Nat) : (⟨.isStopping, true⟩ : REv) ∉ actsOf c (mocks tr) := by
  induction h with
  | nil => simp [mocks, actsOf]
  | @cons n n1 n2 e es h _ ih =>
    cases h with
    | send => exact ih
    | receive => exact ih
    | @mock e s L h hl =>
      rw [show mocks (.mock e :: es) = e :: mocks es from rfl, actsOf_cons]
      intro hm
      rcases List.mem_append.1 hm with hm | hm
      · have hc := carries_at hl c
        generalize actsOf c [e] = l, n.links c = k, L c = k' at hc hm
        cases hc with
        | none => cases hm
        | other a r _ _ h3 => exact h3 (List.mem_singleton.1 hm).symm
        | _ => cases List.mem_singleton.1 hm
      · exact ih hm

end KM
