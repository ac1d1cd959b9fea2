import Verif.Spec.Spmp
import Verif.Props.RoundTrip
import Verif.Lemmas.Dict
/-! # C44: management requests -/
namespace Verif.Spmp

theorem toList_ofList {α : Type} {f : α → Val} {g : Val → Option α} (h : ∀ a, g (f a) = some a) : ∀ l, toList g (ofList f l) = some l
  | [] => rfl
  | a :: l => by simp [ofList, toList, h, toList_ofList h l]

theorem take_fld {α : Type} {f : α → Val} {g : Val → Option α} (h : ∀ a, g (f a) = some a) (o : Option α) (r : FVals) : take g (fld f o r) = some (o, r) := by
  cases o <;> simp [fld, take, h]

theorem ofVal_val (cls : Cls) (p : Packet) : ofVal cls (p.val cls) = some p := by
  have h1 : ∀ l : List Str, getList getStr (.list (ofList .str l)) = some l := fun l => toList_ofList (f := Val.str) (g := getStr) (fun _ => rfl) l
  have h2 : ∀ l : List Bytes, getList getBuf (.list (ofList .buf l)) = some l := fun l => toList_ofList (f := Val.buf) (g := getBuf) (fun _ => rfl) l
  simp only [Packet.val, ofVal, ofFields, if_true]
  rw [take_fld (f := .num) (g := getNum) (fun _ => rfl)]
  simp only [Option.bind_eq_bind, Option.bind_some]
  rw [take_fld (f := .str) (g := getStr) (fun _ => rfl)]
  simp only [Option.bind_some]
  rw [take_fld (f := fun l => .list (ofList .str l)) (g := getList getStr) h1]
  simp only [Option.bind_some]
  rw [take_fld (f := .str) (g := getStr) (fun _ => rfl)]
  simp only [Option.bind_some]
  rw [take_fld (f := .str) (g := getStr) (fun _ => rfl)]
  simp only [Option.bind_some]
  rw [take_fld (f := .str) (g := getStr) (fun _ => rfl)]
  simp only [Option.bind_some]
  rw [take_fld (f := fun l => .list (ofList .buf l)) (g := getList getBuf) h2]
  rfl

/-! ## Refused requests -/

theorem process_refused {σ : Type} {c : Cfg σ} {up : Bool} {w : σ} {p : Packet} (h : c.authorized p = false) :
    (process c up w p).1 = w ∧ ∀ a ∈ (process c up w p).2.1, a = .close := by
  unfold process
  rw [h]
  cases up <;> simp

theorem serveLoop_refused {σ : Type} {c : Cfg σ} (h : ∀ p, c.authorized p = false) : ∀ (n : Nat) (s : Server σ),
    (serveLoop c n s).1.w = s.w ∧ ∀ a ∈ (serveLoop c n s).2, a = .close
  | 0, s => by simp [serveLoop]
  | n + 1, s => by
    unfold serveLoop
    cases hi : s.des.iter c.env c.depth c.cls with
    | mk o d =>
      cases o with
      | none => simp
      | some e =>
        cases e with
        | error e => exact serveLoop_refused h n { s with des := d }
        | packet v =>
          dsimp only
          cases hv : ofVal c.cls v with
          | none => simp
          | some p =>
            obtain ⟨h1, h2⟩ := process_refused (up := s.up) (w := s.w) (h p)
            dsimp only
            cases hp : process c s.up s.w p with
            | mk w' r =>
              cases r with
              | mk acts raised =>
                rw [hp] at h1 h2
                dsimp only at h1 h2
                subst h1
                cases raised with
                | true => exact ⟨rfl, h2⟩
                | false =>
                  obtain ⟨i1, i2⟩ := serveLoop_refused h n { s with des := d }
                  dsimp only
                  refine ⟨i1, fun a ha => ?_⟩
                  rcases List.mem_append.mp ha with ha | ha
                  · exact h2 a ha
                  · exact i2 a ha

theorem exec_refused {σ : Type} {c : Cfg σ} (h : ∀ p, c.authorized p = false) : ∀ (evs : List Ev) (s : Server σ),
    (s.exec c evs).1.w = s.w ∧ ∀ a ∈ (s.exec c evs).2, a = .close
  | [], s => by simp [Server.exec]
  | e :: evs, s => by
    have hstep : (s.step c e).1.w = s.w ∧ ∀ a ∈ (s.step c e).2, a = .close := by
      cases e with
      | data b => exact serveLoop_refused h _ _
      | lost => exact ⟨rfl, by simp [Server.step]⟩
    obtain ⟨i1, i2⟩ := exec_refused h evs (s.step c e).1
    simp only [Server.exec]
    refine ⟨i1.trans hstep.1, fun a ha => ?_⟩
    rcases List.mem_append.mp ha with ha | ha
    · exact hstep.2 a ha
    · exact i2 a ha

/-- C44: a peer that is not on the local machine, whatever bytes it sends and however they arrive, gets no function called, changes nothing, and
receives nothing: the only thing the server does is to close the connection. -/
theorem C44_unauthorized {σ : Type} (c : Cfg σ) (peer : Option Str) (hp : peer ≠ some "127.0.0.1".toList) (hc : c.authorized = fun _ => localAccess peer)
    (w : σ) (evs : List Ev) :
    ((Server.init c w).exec c evs).1.w = w ∧ ∀ a ∈ ((Server.init c w).exec c evs).2, a = .close :=
  exec_refused (fun p => by rw [hc]; exact decide_eq_false hp) evs (Server.init c w)

theorem C44_unauthorized_silent {σ : Type} (c : Cfg σ) (peer : Option Str) (hp : peer ≠ some "127.0.0.1".toList) (hc : c.authorized = fun _ => localAccess peer)
    (w : σ) (evs : List Ev) : written ((Server.init c w).exec c evs).2 = [] := by
  have := (C44_unauthorized c peer hp hc w evs).2
  generalize ((Server.init c w).exec c evs).2 = l at this
  induction l with
  | nil => rfl
  | cons a l ih =>
    rw [this a (by simp), written]
    · exact ih (fun b hb => this b (by simp [hb]))
    · intro b; simp

/-! ## With any policy: only authorized requests -/

/-- What can be in the log: calls that an authorized request asked for, and responses to authorized requests. -/
def Legit {σ : Type} (c : Cfg σ) : Act → Prop
  | .call cmd args => ∃ p : Packet, c.authorized p = true ∧ p.request = some cmd ∧ p.args = some args
  | .write b => ∃ p r : Packet, c.authorized p = true ∧ r.requestId = p.requestId ∧ r.request = p.request ∧ serialize c.env 0 (r.val c.cls) = .ok b
  | .close => True

theorem respond_id (p : Packet) (s : Str) (e : Option Str) : (respond p s e).requestId = p.requestId ∧ (respond p s e).request = p.request := by
  unfold respond
  split
  · exact ⟨rfl, rfl⟩
  · split <;> exact ⟨rfl, rfl⟩

theorem execute_legit {σ : Type} (c : Cfg σ) (w : σ) (p : Packet) (args : List Str) :
    (∀ a ∈ (execute c w p args).2.1, ∃ cmd, a = .call cmd args ∧ p.request = some cmd) ∧
    (execute c w p args).2.2.requestId = p.requestId ∧ (execute c w p args).2.2.request = p.request := by
  unfold execute
  split
  · exact ⟨by simp, respond_id _ _ _⟩
  · next cmd hc =>
    split
    · exact ⟨by simp, respond_id _ _ _⟩
    · split
      · exact ⟨fun a ha => ⟨cmd, by simpa using ha, hc⟩, respond_id _ _ _⟩
      · exact ⟨fun a ha => ⟨cmd, by simpa using ha, hc⟩, respond_id _ _ _⟩

theorem process_legit {σ : Type} (c : Cfg σ) (up : Bool) (w : σ) (p : Packet) : ∀ a ∈ (process c up w p).2.1, Legit c a := by
  unfold process
  split
  · split <;> simp [Legit]
  · next ha =>
    have ha : c.authorized p = true := by simpa using ha
    split
    · simp
    · next args hargs =>
      obtain ⟨h1, h2, h3⟩ := execute_legit c w p args
      cases he : execute c w p args with
      | mk w' r =>
        cases r with
        | mk acts resp =>
          rw [he] at h1 h2 h3
          dsimp only at h1 h2 h3 ⊢
          have hacts : ∀ a ∈ acts, Legit c a := by
            intro a hm
            obtain ⟨cmd, rfl, hq⟩ := h1 a hm
            exact ⟨p, ha, hq, hargs⟩
          split
          · exact hacts
          · split
            · next b hb =>
              intro a hm
              rcases List.mem_append.mp hm with hm | hm
              · exact hacts a hm
              · rw [List.mem_singleton.mp hm]; exact ⟨p, resp, ha, h2, h3, hb⟩
            · exact hacts

theorem serveLoop_legit {σ : Type} (c : Cfg σ) : ∀ (n : Nat) (s : Server σ), ∀ a ∈ (serveLoop c n s).2, Legit c a
  | 0, s => by simp [serveLoop]
  | n + 1, s => by
    unfold serveLoop
    cases hi : s.des.iter c.env c.depth c.cls with
    | mk o d =>
      cases o with
      | none => simp
      | some e =>
        cases e with
        | error e => exact serveLoop_legit c n _
        | packet v =>
          dsimp only
          cases hv : ofVal c.cls v with
          | none => simp
          | some p =>
            have h2 := process_legit c s.up s.w p
            dsimp only
            cases hp : process c s.up s.w p with
            | mk w' r =>
              cases r with
              | mk acts raised =>
                rw [hp] at h2
                cases raised with
                | true => exact h2
                | false =>
                  intro a ha
                  rcases List.mem_append.mp ha with ha | ha
                  · exact h2 a ha
                  · exact serveLoop_legit c n _ a ha

/-- C44, with any policy and whatever bytes arrive: every function that is called was asked for by an authorized request with these arguments,
and everything that is written is a response to an authorized request, with its id. -/
theorem C44_only_authorized {σ : Type} (c : Cfg σ) (w : σ) (evs : List Ev) : ∀ a ∈ ((Server.init c w).exec c evs).2, Legit c a := by
  suffices h : ∀ (evs : List Ev) (s : Server σ), ∀ a ∈ (s.exec c evs).2, Legit c a from h evs _
  intro evs
  induction evs with
  | nil => intro s; simp [Server.exec]
  | cons e evs ih =>
    intro s a ha
    simp only [Server.exec] at ha
    rcases List.mem_append.mp ha with ha | ha
    · cases e with
      | data b => exact serveLoop_legit c _ _ a ha
      | lost => simp [Server.step] at ha
    · exact ih _ a ha

/-! ## Authorized requests -/

/-- The events of the deserializer are processed one after the other. -/
def processAll {σ : Type} (c : Cfg σ) (up : Bool) : σ → List Packet → σ × List Act × Bool
  | w, [] => (w, [], false)
  | w, p :: ps => match process c up w p with
    | (w', acts, true) => (w', acts, true)
    | (w', acts, false) => ((processAll c up w' ps).1, acts ++ (processAll c up w' ps).2.1, (processAll c up w' ps).2.2)

theorem serveLoop_eq {σ : Type} (c : Cfg σ) : ∀ (n : Nat) (s : Server σ) (ps : List Packet),
    (nextLoop c.env c.depth c.cls n s.des).1 = ps.map (fun p => .packet (p.val c.cls)) → (processAll c s.up s.w ps).2.2 = false →
    serveLoop c n s = (⟨(nextLoop c.env c.depth c.cls n s.des).2.1, s.up, (processAll c s.up s.w ps).1⟩, (processAll c s.up s.w ps).2.1)
  | 0, s, ps, he, _ => by
    cases ps with
    | nil => rfl
    | cons p ps => simp [nextLoop] at he
  | n + 1, s, ps, he, hr => by
    unfold serveLoop
    unfold nextLoop at he ⊢
    cases hi : s.des.iter c.env c.depth c.cls with
    | mk o d =>
      rw [hi] at he
      cases o with
      | none =>
        cases ps with
        | nil => rfl
        | cons p ps => simp at he
      | some e =>
        dsimp only at he ⊢
        cases ps with
        | nil => simp at he
        | cons p ps =>
          simp only [List.map_cons, List.cons.injEq] at he
          obtain ⟨rfl, he⟩ := he
          dsimp only
          rw [ofVal_val]
          dsimp only
          unfold processAll at hr ⊢
          cases hp : process c s.up s.w p with
          | mk w' r =>
            cases r with
            | mk acts raised =>
              rw [hp] at hr
              cases raised with
              | true => simp at hr
              | false =>
                dsimp only at hr ⊢
                have := serveLoop_eq c n { s with des := d, w := w' } ps he hr
                rw [this]

theorem processAll_append {σ : Type} (c : Cfg σ) (up : Bool) : ∀ (ps qs : List Packet) (w : σ), (processAll c up w (ps ++ qs)).2.2 = false →
    (processAll c up w ps).2.2 = false ∧
    processAll c up w (ps ++ qs) = ((processAll c up (processAll c up w ps).1 qs).1,
      (processAll c up w ps).2.1 ++ (processAll c up (processAll c up w ps).1 qs).2.1, (processAll c up (processAll c up w ps).1 qs).2.2)
  | [], qs, w, _ => ⟨rfl, rfl⟩
  | p :: ps, qs, w, h => by
    rw [List.cons_append] at h ⊢
    cases hp : process c up w p with
    | mk w' r =>
      cases r with
      | mk acts raised =>
        cases raised with
        | true => rw [processAll, hp] at h; simp at h
        | false =>
          have e : ∀ l, processAll c up w (p :: l) = ((processAll c up w' l).1, acts ++ (processAll c up w' l).2.1, (processAll c up w' l).2.2) := by
            intro l; rw [processAll, hp]
          rw [e] at h
          obtain ⟨h1, h2⟩ := processAll_append c up ps qs w' h
          rw [e, e, h2]
          exact ⟨h1, by simp⟩

theorem unknown_ne (a b : Str) : unknown a b ≠ [] := by
  unfold unknown
  intro h
  have := (List.append_eq_nil_iff.mp h).2
  revert this
  decide

/-- The calls of the deserializer that a list of chunks leads to. -/
def opsOf (bs : List Bytes) : List DOp := bs.flatMap fun b => [.update b, .next]

theorem received_opsOf : ∀ bs, received (opsOf bs) = bs.flatten
  | [] => rfl
  | b :: bs => by simp only [opsOf, List.flatMap_cons, List.cons_append, List.nil_append, received, List.flatten_cons]; exact congrArg _ (received_opsOf bs)

theorem exec_eq {σ : Type} (c : Cfg σ) : ∀ (bs : List Bytes) (s : Server σ) (ps : List Packet),
    (runOps c.env c.depth c.cls s.des (opsOf bs)).1 = ps.map (fun p => .packet (p.val c.cls)) → (processAll c s.up s.w ps).2.2 = false →
    s.exec c (bs.map .data) = (⟨(runOps c.env c.depth c.cls s.des (opsOf bs)).2, s.up, (processAll c s.up s.w ps).1⟩, (processAll c s.up s.w ps).2.1)
  | [], s, ps, he, _ => by
    cases ps with
    | nil => rfl
    | cons p ps => simp [opsOf, runOps] at he
  | b :: bs, s, ps, he, hr => by
    simp only [opsOf, List.flatMap_cons, List.cons_append, List.nil_append, runOps] at he ⊢
    obtain ⟨ps1, ps2, rfl, e1, e2⟩ := List.append_eq_map_iff.mp he
    obtain ⟨r1, r2⟩ := processAll_append c s.up ps1 ps2 s.w hr
    have hd : s.data c b = (⟨(DState.next c.env c.depth c.cls (s.des.update b)).2.1, s.up, (processAll c s.up s.w ps1).1⟩, (processAll c s.up s.w ps1).2.1) :=
      serveLoop_eq c _ { s with des := s.des.update b } ps1 e1.symm r1
    have hrec := exec_eq c bs ⟨(DState.next c.env c.depth c.cls (s.des.update b)).2.1, s.up, (processAll c s.up s.w ps1).1⟩ ps2 e2.symm
      (by rw [r2] at hr; exact hr)
    simp only [List.map_cons, Server.exec, Server.step]
    rw [hd]
    dsimp only
    rw [hrec, r2]
    rfl

theorem outcome_execute {σ : Type} {c : Cfg σ} {w w' : σ} {q : Query} {acts result error} (h : Outcome c w q.cmd q.args w' acts result error) :
    execute c w q.packet q.args = (w', acts, q.response result error) := by
  unfold execute Query.packet request
  cases h with
  | unknown h =>
    rw [show (Packet.request ⟨some (q.id : Int), some q.cmd, some q.args, some [], none, none, none⟩) = some q.cmd from rfl]
    dsimp only
    rw [h]
    dsimp only [respond]
    rw [if_neg (unknown_ne _ _)]
    rfl
  | value f w' s h1 h2 => dsimp only; rw [h1]; dsimp only; rw [h2]; rfl
  | failed f w' e h1 h2 h3 => dsimp only; rw [h1]; dsimp only; rw [h2]; dsimp only [respond]; rw [if_neg h3]; rfl
  | failedSilently f w' h1 h2 => dsimp only; rw [h1]; dsimp only; rw [h2]; rfl

theorem served_processAll {σ : Type} {c : Cfg σ} {w w' : σ} {qs : List Query} {acts : List Act} {rs}
    (h : Served c w qs w' acts rs) (ha : ∀ q ∈ qs, c.authorized q.packet = true) : processAll c true w (qs.map Query.packet) = (w', acts, false) := by
  induction h with
  | nil w => rfl
  | @cons w w1 w2 q qs acts b acts' result error rs h1 h2 h3 ih =>
    have hp : process c true w q.packet = (w1, acts ++ [.write b], false) := by
      unfold process
      rw [ha q (by simp)]
      simp only [Bool.not_true, Bool.false_eq_true, if_false]
      rw [show q.packet.args = some q.args from rfl]
      dsimp only
      rw [outcome_execute h1]
      dsimp only
      rw [h2]
    rw [List.map_cons, processAll, hp]
    dsimp only
    rw [ih (fun x hx => ha x (by simp [hx]))]
    simp

theorem flat_list {α : Type} {f : α → Val} (h : ∀ a, flatV (f a) = true) : ∀ l, flatL (ofList f l) = true
  | [] => rfl
  | a :: l => by simp [ofList, flatL, h, flat_list h l]

theorem flat_fld {α : Type} {f : α → Val} (h : ∀ a, flatV (f a) = true) (o : Option α) {r : FVals} (hr : flatF r = true) : flatF (fld f o r) = true := by
  cases o <;> simp [fld, flatF, h, hr]

theorem plain_decodes {env : Env} (hr : env.Registered) {depth : Nat} {cls : Cls} {p : Packet} (h : Plain env cls p) :
    Decodes env (depth + 1) cls (ser env (p.val cls)) (p.val cls) := by
  have hstr : ∀ s : Str, flatV (.str s) = true := fun _ => by simp [flatV]
  refine C01_roundtrip_flat_partial hr h.1 ?_ (by have := h.2; simpa [Packet.val, asciiV] using this)
  refine flat_fld (fun _ => by simp [flatV]) _ (flat_fld hstr _ (flat_fld (fun l => ?_) _ (flat_fld hstr _ (flat_fld hstr _ (flat_fld hstr _ (flat_fld (fun l => ?_) _ rfl))))))
  · simpa [flatV] using flat_list (f := Val.str) hstr l
  · simpa [flatV] using flat_list (f := Val.buf) (fun _ => by simp [flatV]) l

theorem opsOf_snoc (bs : List Bytes) (b : Bytes) : opsOf (bs ++ [b]) = (opsOf bs ++ [.update b]) ++ [.next] := by
  simp [opsOf, List.flatMap_append]

/-- Any chunks of the bytes of a list of packets, read as `data_received` does. -/
theorem chunks_events {env : Env} (hr : env.Registered) {depth : Nat} {cls : Cls} (ps : List Packet) (hp : ∀ p ∈ ps, Plain env cls p)
    (bs : List Bytes) (hb : bs.flatten = ps.flatMap fun p => ser env (p.val cls)) :
    (runOps env (depth + 1) cls (.init env (depth + 1) cls) (opsOf bs)).1 = ps.map (fun p => .packet (p.val cls)) := by
  have hvals : ∀ v ∈ ps.map (fun p => p.val cls), Sendable env cls v ∧ Decodes env (depth + 1) cls (ser env v) v := by
    intro v hv
    obtain ⟨p, hpm, rfl⟩ := List.mem_map.mp hv
    exact ⟨(hp p hpm).1, plain_decodes hr (hp p hpm)⟩
  rcases List.eq_nil_or_concat bs with rfl | ⟨bs', b, rfl⟩
  · cases ps with
    | nil => rfl
    | cons p ps =>
      exfalso
      obtain ⟨c, fs, bb, e1, e2, e3, e4⟩ := sendable_cases (hp p (by simp)).1
      obtain ⟨d, tags, n, h, body, hdr, hcls, ht, hn, hh, hbd, hhdr, rfl⟩ := encPacket_inv e4
      simp only [List.flatMap_cons, e3, List.flatten_nil] at hb
      have hlen := congrArg List.length hb
      have := packU_len hh
      simp only [List.length_append, List.length_nil] at hlen
      omega
  · rw [List.concat_eq_append] at hb ⊢
    rw [opsOf_snoc]
    have := C02_any_chunking hr (depth := depth) (ps.map (fun p => p.val cls)) hvals (opsOf bs' ++ [.update b]) (by
      have h1 := received_opsOf (bs' ++ [b])
      rw [hb, opsOf_snoc] at h1
      have h2 : ∀ (o : List DOp), received (o ++ [.next]) = received o := by
        intro o; induction o with
        | nil => rfl
        | cons x o ih => cases x <;> simp [received, ih]
      rw [h2] at h1
      rw [h1, List.flatMap_map])
    rw [this, List.map_map]
    rfl

/-- C44: authorized requests, in any chunks: each is carried out exactly once, in the order in which they were sent, and each gets exactly one
response, with its id and its result or its error. -/
theorem C44_each_once_partial {σ : Type} (c : Cfg σ) (hr : c.env.Registered) {d : Nat} (hd : c.depth = d + 1) 
    (w : σ) (qs : List Query) (ha : ∀ q ∈ qs, c.authorized q.packet = true) (hq : ∀ q ∈ qs, Plain c.env c.cls q.packet)
    (bs : List Bytes) (hb : bs.flatten = qs.flatMap fun q => ser c.env (q.packet.val c.cls))
    {w' : σ} {acts : List Act} {rs} (hs : Served c w qs w' acts rs) :
    ((Server.init c w).exec c (bs.map .data)).1.w = w' ∧ ((Server.init c w).exec c (bs.map .data)).2 = acts := by
  have hev := chunks_events hr (depth := d) (qs.map Query.packet) (by
    intro p hp; obtain ⟨q, hqm, rfl⟩ := List.mem_map.mp hp; exact hq q hqm) bs (by rw [hb, List.flatMap_map])
  have hpa := served_processAll hs ha
  rw [← hd] at hev
  have := exec_eq c bs (Server.init c w) (qs.map Query.packet) hev (by rw [show (Server.init c w).up = true from rfl, show (Server.init c w).w = w from rfl, hpa])
  rw [this]
  rw [show (Server.init c w).up = true from rfl, show (Server.init c w).w = w from rfl, hpa]
  exact ⟨rfl, rfl⟩

/-! ## Packets within the limits -/

theorem enc_fld {α : Type} {env : Env} {f : α → Val} {o : Option α} {r : FVals} {nm : String} {tg : Option Nat} {opt : Bool} {t : FType} {ds : FDecls} {tag : Nat} {tags : List Nat} {n m : Nat}
    (h : ∀ a, o = some a → ∃ b, encV env (f a) t = .ok b ∧ b.length ≤ n) (ht : tag < 65536) (hr : ∃ b, encF env r ds tags = .ok b ∧ b.length ≤ m) :
    ∃ b, encF env (fld f o r) (.cons nm tg opt t ds) (tag :: tags) = .ok b ∧ b.length ≤ n + 2 + m := by
  obtain ⟨br, e, l⟩ := hr
  cases o with
  | none => exact ⟨br, by rw [fld, encF]; exact e, by omega⟩
  | some a =>
    obtain ⟨b, e', l'⟩ := h a rfl
    refine ⟨beEnc 2 tag ++ (b ++ br), ?_, by simp; omega⟩
    rw [fld, encF, packU_nat (by omega), e', e]
    rfl

theorem enc_str {env : Env} {s : Str} (h : OkStr s) : ∃ b, encV env (.str s) .str = .ok b ∧ b.length ≤ 65537 := by
  refine ⟨beEnc 2 s.length ++ (utf8 s).take s.length, ?_, ?_⟩
  · rw [encV, if_neg (by have := h.2; omega), packU_nat (by have := h.2; omega)]
    rfl
  · have := h.2
    simp
    omega

theorem enc_strs {env : Env} : ∀ (l : List Str), (∀ s ∈ l, OkStr s) → ∃ b, encL env (ofList .str l) .str = .ok b ∧ b.length ≤ l.length * 65537
  | [], _ => ⟨[], by rw [ofList, encL], by simp⟩
  | s :: l, h => by
    obtain ⟨b, e, hb⟩ := enc_str (env := env) (h s (by simp))
    obtain ⟨bs, es, hbs⟩ := enc_strs (env := env) l (fun x hx => h x (by simp [hx]))
    refine ⟨b ++ bs, ?_, by simp only [List.length_append, List.length_cons]; omega⟩
    rw [ofList, encL, e, es]
    rfl

theorem length_ofList {α : Type} (f : α → Val) : ∀ l : List α, (ofList f l).length = l.length
  | [] => rfl
  | a :: l => by simp [ofList, VList.length, length_ofList f l]

theorem accepts_strs (env : Env) : ∀ l : List Str, acceptsL env (ofList .str l) .str = true
  | [] => rfl
  | s :: l => by simp [ofList, acceptsL, accepts, accepts_strs env l]

theorem accepts_fld {α : Type} {env : Env} {f : α → Val} {o : Option α} {r : FVals} {nm : String} {tg : Option Nat} {opt : Bool} {t : FType} {ds : FDecls}
    (h : ∀ a, o = some a → accepts env (f a) t = true) (hr : acceptsF env r ds = true) : acceptsF env (fld f o r) (.cons nm tg opt t ds) = true := by
  cases o with
  | none => rw [fld, acceptsF]; exact hr
  | some a => rw [fld, acceptsF, h a rfl, hr]; rfl

theorem ascii_fld {α : Type} {f : α → Val} {o : Option α} {r : FVals} (h : ∀ a, o = some a → asciiV (f a) = true) (hr : asciiF r = true) : asciiF (fld f o r) = true := by
  cases o with
  | none => rw [fld, asciiF]; exact hr
  | some a => rw [fld, asciiF, h a rfl, hr]; rfl

theorem ascii_strs : ∀ l : List Str, (∀ s ∈ l, OkStr s) → asciiL (ofList .str l) = true
  | [], _ => rfl
  | s :: l, h => by rw [ofList, asciiL, asciiV, (h s (by simp)).1, ascii_strs l (fun x hx => h x (by simp [hx]))]; rfl

theorem htags : processFields fields = .ok [0, 1, 2, 3, 4, 5, 6] := by decide +kernel
theorem hid : (utf8 packetDef.ident).length = 29 := by decide +kernel
theorem hver : (utf8 packetDef.version).length = 3 := by decide +kernel

theorem hdr_ok (n : Nat) (body : Bytes) (hb : body.length < 2 ^ 63) : ∃ hdr, encHeader (16 + (1 + (utf8 packetDef.ident).length) + (1 + (utf8 packetDef.version).length) + ((beEnc 2 n).length + body.length)) (utf8 packetDef.ident) (utf8 packetDef.version) = .ok hdr := by
  unfold encHeader
  rw [hid, hver, beEnc_length]
  generalize utf8 packetDef.ident = idb
  generalize utf8 packetDef.version = verb
  generalize ht : 16 + (1 + 29) + (1 + 3) + (2 + body.length) = total
  have htl : total < 2 ^ 64 := by omega
  have hc := compl64_lt htl
  rw [packU_nat (w := 8) (v := total) (by omega), packU_nat (w := 8) (v := compl64 total) (by omega), packU_nat (w := 1) (v := 29) (by omega), packU_nat (w := 1) (v := 3) (by omega)]
  exact ⟨_, rfl⟩

theorem num_ok (env : Env) {i : Int} (hi0 : 0 ≤ i) (hi1 : i < 2 ^ 16) : ∃ b, encV env (.num i) (.num false { bits := some 16 }) = .ok b ∧ b.length ≤ 2 := by
  refine ⟨beEnc 2 i.toNat, ?_, by simp⟩
  rw [encV]
  have : numWidth { bits := some 16 } = .ok 2 := by decide +kernel
  rw [this]
  show (if false = true then packS 2 i else packU 2 i) = _
  rw [if_neg (by simp), packU, if_pos ⟨hi0, by omega⟩]

/-- The body of a packet within the limits. -/
theorem Fits.body {env : Env} {p : Packet} (h : Fits p) : ∃ b, encF env (fld .num p.requestId (fld .str p.request (fld (fun l => .list (ofList .str l)) p.args (fld .str p.result
      (fld .str p.error (fld .str p.securityType (fld (fun l => .list (ofList .buf l)) p.security .nil))))))) fields [0, 1, 2, 3, 4, 5, 6] = .ok b ∧ b.length < 2 ^ 63 := by
  obtain ⟨i, hi, hi0, hi1⟩ := h.requestId
  obtain ⟨rq, hrq, okrq⟩ := h.request
  obtain ⟨args, hargs, hal, okargs⟩ := h.args
  obtain ⟨res, hres, okres⟩ := h.result
  have hstr : ∀ (o : Option Str), (∀ s, o = some s → OkStr s) → ∀ a, o = some a → ∃ b, encV env (.str a) .str = .ok b ∧ b.length ≤ 65537 :=
    fun o ho a ha => enc_str (ho a ha)
  obtain ⟨na, hna, hargsE⟩ : ∃ na, na < 2 ^ 62 ∧ ∃ b, encV env (.list (ofList .str args)) (.list .str) = .ok b ∧ b.length ≤ na := by
    obtain ⟨b, e, hb⟩ := enc_strs (env := env) args okargs
    refine ⟨2 + args.length * 65537, by omega, beEnc 2 args.length ++ b, ?_, ?_⟩
    · rw [encV, length_ofList, packU_nat (by omega), e]; rfl
    · simp only [List.length_append, beEnc_length]; omega
  have hnum := num_ok env hi0 hi1
  have h7 : ∃ b, encF env .nil .nil [] = .ok b ∧ b.length ≤ 0 := ⟨[], by rw [encF], Nat.le_refl 0⟩
  have h6 := enc_fld (nm := "security") (tg := none) (opt := true) (t := .list .buf) (tag := 6) (n := 0) (f := fun l => .list (ofList .buf l)) (o := p.security)
    (fun a ha => by rw [h.security] at ha; cases ha) (by omega) h7
  have h5 := enc_fld (nm := "securityType") (tg := none) (opt := true) (tag := 5) (hstr p.securityType h.securityType) (by omega) h6
  have h4 := enc_fld (nm := "error") (tg := none) (opt := true) (tag := 4) (hstr p.error h.error) (by omega) h5
  have h3 := enc_fld (nm := "result") (tg := none) (opt := false) (tag := 3) (hstr p.result (fun s hs => by rw [hres] at hs; cases hs; exact okres)) (by omega) h4
  have h2 := enc_fld (nm := "args") (tg := none) (opt := false) (t := .list .str) (tag := 2) (n := na) (f := fun l => .list (ofList .str l)) (o := p.args)
    (fun a ha => by rw [hargs] at ha; cases ha; exact hargsE) (by omega) h3
  have h1 := enc_fld (nm := "request") (tg := none) (opt := false) (tag := 1) (hstr p.request (fun s hs => by rw [hrq] at hs; cases hs; exact okrq)) (by omega) h2
  obtain ⟨b, e, hl⟩ := enc_fld (nm := "requestId") (tg := none) (opt := false) (t := .num false { bits := some 16 }) (tag := 0) (n := 2) (f := .num) (o := p.requestId)
    (fun a ha => by rw [hi] at ha; cases ha; exact hnum) (by omega) h1
  exact ⟨b, e, by omega⟩

theorem Fits.count {p : Packet} (h : Fits p) : ∃ n, countSet (fld .num p.requestId (fld .str p.request (fld (fun l => .list (ofList .str l)) p.args (fld .str p.result
      (fld .str p.error (fld .str p.securityType (fld (fun l => .list (ofList .buf l)) p.security .nil))))))) fields = .ok n ∧ n ≤ 7 := by
  obtain ⟨i, hi, _⟩ := h.requestId
  obtain ⟨rq, hrq, _⟩ := h.request
  obtain ⟨args, hargs, _⟩ := h.args
  obtain ⟨res, hres, _⟩ := h.result
  rw [hi, hrq, hargs, hres, h.security]
  cases p.error <;> cases p.securityType <;> exact ⟨_, rfl, by decide⟩

theorem Fits.accepts {env : Env} {p : Packet} (h : Fits p) : acceptsF env (fld .num p.requestId (fld .str p.request (fld (fun l => .list (ofList .str l)) p.args (fld .str p.result
      (fld .str p.error (fld .str p.securityType (fld (fun l => .list (ofList .buf l)) p.security .nil))))))) fields = true := by
  obtain ⟨i, hi, hi0, hi1⟩ := h.requestId
  unfold fields
  refine accepts_fld (fun a ha => ?_) (accepts_fld (fun _ _ => by rw [Verif.accepts]) (accepts_fld (fun a _ => ?_) (accepts_fld (fun _ _ => by rw [Verif.accepts]) (accepts_fld (fun _ _ => by rw [Verif.accepts])
    (accepts_fld (fun _ _ => by rw [Verif.accepts]) (accepts_fld (fun a ha => ?_) (by rw [acceptsF])))))))
  · rw [hi] at ha; cases ha
    rw [Verif.accepts]
    simp only [NumAttrs.validates, NumAttrs.effMax, Option.map_some, Bool.false_or, Bool.and_true, Bool.and_eq_true, decide_eq_true_eq]
    omega
  · rw [Verif.accepts]; exact accepts_strs env a
  · rw [h.security] at ha; cases ha

theorem Fits.ascii {cls : Cls} {p : Packet} (h : Fits p) : asciiV (p.val cls) = true := by
  obtain ⟨rq, hrq, okrq⟩ := h.request
  obtain ⟨args, hargs, hal, okargs⟩ := h.args
  obtain ⟨res, hres, okres⟩ := h.result
  rw [Packet.val, asciiV]
  refine ascii_fld (fun a _ => by simp [asciiV]) (ascii_fld (fun a ha => ?_) (ascii_fld (fun a ha => ?_) (ascii_fld (fun a ha => ?_) (ascii_fld (fun a ha => ?_) (ascii_fld (fun a ha => ?_) (ascii_fld (fun a ha => ?_) (by rw [asciiF])))))))
  · rw [hrq] at ha; cases ha; rw [asciiV]; exact okrq.1
  · rw [hargs] at ha; cases ha; rw [asciiV]; exact ascii_strs _ okargs
  · rw [hres] at ha; cases ha; rw [asciiV]; exact okres.1
  · rw [asciiV]; exact (h.error a ha).1
  · rw [asciiV]; exact (h.securityType a ha).1
  · rw [h.security] at ha; cases ha

theorem bindOk {α β : Type} {x : Except Err α} {a : α} {f : α → Except Err β} (h : x = .ok a) : (x >>= f) = f a := by subst h; rfl
theorem ser_packet {env : Env} {cls : Cls} {fs : FVals} {d : PDef} {tags : List Nat} {n : Nat} {h body hdr : Bytes} (hc : env.classDef cls = some d) (ht : processFields d.fields = .ok tags)
    (hn : countSet fs d.fields = .ok n) (hn' : packU 2 (n:Int) = .ok h) (hb : encF env fs d.fields tags = .ok body)
    (hh : encHeader (16 + (1 + (utf8 d.ident).length) + (1 + (utf8 d.version).length) + (h.length + body.length)) (utf8 d.ident) (utf8 d.version) = .ok hdr) :
    serialize env 0 (.packet cls fs) = .ok (hdr ++ (h ++ body)) := by
  rw [serialize, encV, hc]
  dsimp only
  rw [bindOk ht, bindOk hn, bindOk hn', bindOk hb]
  exact bindOk hh

/-- Requests and responses within the limits survive the codec. -/
theorem Fits.plain {env : Env} {cls : Cls} (hc : env.classDef cls = some packetDef) (hs : env.isSub cls cls = true) {p : Packet} (h : Fits p) : Plain env cls p := by
  refine ⟨⟨?_, ?_⟩, h.ascii⟩
  · rw [Packet.val, Verif.accepts, hs, hc]
    simp only [Bool.true_and]
    exact h.accepts
  · obtain ⟨body, hb, hbl⟩ := h.body (env := env)
    obtain ⟨n, hn, hn7⟩ := h.count
    obtain ⟨hdr, hh⟩ := hdr_ok n body hbl
    exact ⟨hdr ++ (beEnc 2 n ++ body), ser_packet (d := packetDef) hc htags hn (packU_nat (by omega)) hb hh⟩

/-! ## The client -/

theorem recv_eq (env : Env) (depth : Nat) (cls : Cls) : ∀ (bs : List Bytes) (s : Client),
    (s.recv env depth cls bs).responses = (runOps env depth cls s.des (opsOf bs)).1.foldl (Client.accept cls) s.responses
  | [], s => rfl
  | b :: bs, s => by
    simp only [Client.recv, opsOf, List.flatMap_cons, List.cons_append, List.nil_append, runOps, List.foldl_append]
    exact recv_eq env depth cls bs (s.data env depth cls b)

theorem accept_get (cls : Cls) : ∀ (ps : List Packet) (r : Dict (Option Int) (Option Str × Option Str)) (k : Option Int),
    Dict.get ((ps.map (fun p => Event.packet (p.val cls))).foldl (Client.accept cls) r) k =
      match ps.reverse.find? (fun p => decide (p.requestId = k)) with
      | some p => some (p.result, p.error)
      | none => r.get k
  | [], r, k => rfl
  | p :: ps, r, k => by
    have ih := accept_get cls ps (r.set p.requestId (p.result, p.error)) k
    simp only [List.map_cons, List.foldl_cons, Client.accept, ofVal_val]
    rw [ih, List.reverse_cons, List.find?_append]
    cases ps.reverse.find? (fun p => decide (p.requestId = k)) with
    | some p' => rfl
    | none =>
      by_cases hk : p.requestId = k
      · subst hk; simp [Dict.get_set_self]
      · simp [hk, Dict.get_set_ne]

theorem nodup_map_inj {α β : Type} {f : α → β} : ∀ {l : List α}, (l.map f).Nodup → ∀ {x y : α}, x ∈ l → y ∈ l → f x = f y → x = y
  | a :: l, h, x, y, hx, hy, e => by
    rw [List.map_cons, List.nodup_cons] at h
    rcases List.mem_cons.mp hx with e1 | hx' <;> rcases List.mem_cons.mp hy with e2 | hy'
    · rw [e1, e2]
    · exact absurd (List.mem_map.mpr ⟨y, hy', by rw [← e, e1]⟩) h.1
    · exact absurd (List.mem_map.mpr ⟨x, hx', by rw [e, e2]⟩) h.1
    · exact nodup_map_inj h.2 hx' hy' e

/-- C44: the responses to queries with different ids, in any chunks: every query gets its own result and error. -/
theorem C44_client_partial {env : Env} (hr : env.Registered) {depth : Nat} {cls : Cls} (qrs : List (Query × Str × Option Str))
    (hid : (qrs.map (·.1.id)).Nodup) (hp : ∀ x ∈ qrs, Plain env cls (x.1.response x.2.1 x.2.2))
    (bs : List Bytes) (hb : bs.flatten = qrs.flatMap fun x => ser env ((x.1.response x.2.1 x.2.2).val cls)) :
    ∀ x ∈ qrs, ((Client.init env (depth + 1) cls).recv env (depth + 1) cls bs).answer x.1.id = some (some x.2.1, x.2.2) := by
  intro x hx
  have hev := chunks_events hr (depth := depth) (qrs.map fun x => x.1.response x.2.1 x.2.2) (by
    intro p hpm; obtain ⟨y, hy, rfl⟩ := List.mem_map.mp hpm; exact hp y hy) bs (by rw [hb, List.flatMap_map])
  unfold Client.answer
  rw [recv_eq]
  show Dict.get ((runOps env (depth + 1) cls (.init env (depth + 1) cls) (opsOf bs)).1.foldl (Client.accept cls) []) _ = _
  rw [hev, accept_get]
  have hfind : (qrs.map fun x => x.1.response x.2.1 x.2.2).reverse.find? (fun p => decide (p.requestId = some (x.1.id : Int))) = some (x.1.response x.2.1 x.2.2) := by
    have hex : ((qrs.map fun x => x.1.response x.2.1 x.2.2).reverse.find? (fun p => decide (p.requestId = some (x.1.id : Int)))).isSome := by
      rw [List.find?_isSome]
      exact ⟨x.1.response x.2.1 x.2.2, by rw [List.mem_reverse]; exact List.mem_map.mpr ⟨x, hx, rfl⟩, by simp [Query.response]⟩
    obtain ⟨p, hpp⟩ := Option.isSome_iff_exists.mp hex
    rw [hpp]
    have h1 := List.mem_of_find?_eq_some hpp
    have h2 := List.find?_some hpp
    rw [List.mem_reverse] at h1
    obtain ⟨y, hy, rfl⟩ := List.mem_map.mp h1
    have hyx : y.1.id = x.1.id := by
      have : (y.1.id : Int) = (x.1.id : Int) := by simpa [Query.response] using h2
      omega
    have : y = x := by
      exact nodup_map_inj hid hy hx hyx
    rw [this]
  rw [hfind]
  rfl

theorem served_written {σ : Type} {c : Cfg σ} {w w' : σ} {qs : List Query} {acts : List Act} {rs} (h : Served c w qs w' acts rs) :
    rs.length = qs.length ∧ written acts = (qs.zip rs).flatMap fun x => ser c.env ((x.1.response x.2.1 x.2.2).val c.cls) := by
  induction h with
  | nil w => exact ⟨rfl, rfl⟩
  | @cons w w1 w2 q qs acts b acts' result error rs h1 h2 h3 ih =>
    refine ⟨by simp [ih.1], ?_⟩
    have hw : ∀ l, written (acts ++ l) = written l := by
      intro l
      cases h1 <;> simp [written]
    rw [hw, written, ih.2, List.zip_cons_cons, List.flatMap_cons]
    congr 1
    exact (ser_eq h2).symm

/-- C44, from end to end: queries with different ids sent over a connection that cuts the bytes in any way in both directions: the functions are
called once each, in order, and every query returns the result and the error of its own call. -/
theorem C44_end_to_end_partial {σ : Type} (c : Cfg σ) (hr : c.env.Registered) {d : Nat} (hd : c.depth = d + 1) 
    (w : σ) (qs : List Query) (ha : ∀ q ∈ qs, c.authorized q.packet = true) (hq : ∀ q ∈ qs, Plain c.env c.cls q.packet) (hid : (qs.map (·.id)).Nodup)
    (bs : List Bytes) (hb : bs.flatten = qs.flatMap fun q => ser c.env (q.packet.val c.cls))
    {w' : σ} {acts : List Act} {rs} (hs : Served c w qs w' acts rs)
    (hrs : ∀ x ∈ qs.zip rs, Plain c.env c.cls (x.1.response x.2.1 x.2.2))
    (bs' : List Bytes) (hb' : bs'.flatten = written ((Server.init c w).exec c (bs.map .data)).2) :
    ((Server.init c w).exec c (bs.map .data)).1.w = w' ∧
    ∀ x ∈ qs.zip rs, ((Client.init c.env c.depth c.cls).recv c.env c.depth c.cls bs').answer x.1.id = some (some x.2.1, x.2.2) := by
  obtain ⟨h1, h2⟩ := C44_each_once_partial c hr hd w qs ha hq bs hb hs
  refine ⟨h1, ?_⟩
  rw [h2, (served_written hs).2] at hb'
  rw [hd]
  refine C44_client_partial hr (qs.zip rs) ?_ hrs bs' hb'
  have : (qs.zip rs).map (·.1.id) = ((qs.zip rs).map Prod.fst).map (·.id) := by rw [List.map_map]; rfl
  rw [this, List.map_fst_zip (by rw [(served_written hs).1]; omega)]
  exact hid

/-! ## What does not hold, and examples -/

/-- Class 1 is `SPMPPacket`. -/
def exEnv : Env where
  classDef := fun c => if c = 1 then some packetDef else none
  isSub := fun c b => b == 0 || b == c
  lookup := fun _ name v => if name = packetDef.ident ∧ v = ⟨1, 0⟩ then .ok (some 1) else .ok none

theorem exRegistered : exEnv.Registered := by
  intro cls d base h _
  unfold exEnv at h ⊢
  dsimp only at h ⊢
  split at h
  · next hc =>
    cases h
    exact ⟨⟨1, 0⟩, by decide +kernel, by rw [if_pos ⟨rfl, rfl⟩, hc]⟩
  · cases h

/-- A device with a counter: `add` appends a letter for each argument and returns what there is; `fail` raises; `quiet` raises an exception without a message. -/
def exApi (cmd : Str) : Option (List Str → Str → Str × Res) :=
  if cmd = ['a', 'd', 'd'] then some fun args w => (w ++ args.flatten, .value (w ++ args.flatten))
  else if cmd = ['f', 'a', 'i', 'l'] then some fun _ w => (w, .raised ['n', 'o'])
  else if cmd = ['q'] then some fun _ w => (w, .raised [])
  else none

def exCfg (auth : Packet → Bool) : Cfg Str := ⟨exEnv, 2, 1, ['d'], exApi, auth⟩

def q1 : Query := ⟨7, ['a', 'd', 'd'], [['x'], ['y']]⟩
def q2 : Query := ⟨65535, ['f', 'a', 'i', 'l'], []⟩
def q3 : Query := ⟨0, ['z'], []⟩

theorem fits_query (q : Query) (h1 : q.id < 2 ^ 16) (h2 : OkStr q.cmd) (h3 : q.args.length < 2 ^ 16) (h4 : ∀ s ∈ q.args, OkStr s) : Fits q.packet :=
  ⟨⟨q.id, rfl, by omega, by omega⟩, ⟨_, rfl, h2⟩, ⟨_, rfl, h3, h4⟩, ⟨[], rfl, by unfold OkStr; decide⟩, fun _ h => (by cases h), fun _ h => (by cases h), rfl⟩

theorem fits_response (q : Query) (h : Fits q.packet) {result : Str} {error : Option Str} (h1 : OkStr result) (h2 : ∀ e, error = some e → OkStr e) : Fits (q.response result error) :=
  ⟨h.requestId, h.request, h.args, ⟨_, rfl, h1⟩, h2, fun _ h => (by cases h), rfl⟩

theorem exFits (q : Query) (hq : q ∈ [q1, q2, q3]) : Fits q.packet := by
  simp only [List.mem_cons, List.not_mem_nil, or_false] at hq
  rcases hq with rfl | rfl | rfl
  · exact fits_query _ (by decide) (by unfold OkStr; decide) (by decide) (by unfold OkStr; decide)
  · exact fits_query _ (by decide) (by unfold OkStr; decide) (by decide) (by unfold OkStr; decide)
  · exact fits_query _ (by decide) (by unfold OkStr; decide) (by decide) (by unfold OkStr; decide)

theorem exPlain {p : Packet} (h : Fits p) : Plain exEnv 1 p := h.plain rfl rfl

/-- The three queries are served. -/
theorem exServed (auth : Packet → Bool) : ∃ acts, Served (exCfg auth) ['w'] [q1, q2, q3] ['w', 'x', 'y'] acts
    [(['w', 'x', 'y'], none), ([], some ['n', 'o']), ([], some (unknown ['z'] ['d']))] := by
  have f1 := exPlain (fits_response q1 (exFits q1 (by simp)) (result := ['w', 'x', 'y']) (error := none) (by unfold OkStr; decide) (by simp))
  have f2 := exPlain (fits_response q2 (exFits q2 (by simp)) (result := []) (error := some ['n', 'o']) (by unfold OkStr; decide) (by unfold OkStr; decide))
  have f3 := exPlain (fits_response q3 (exFits q3 (by simp)) (result := []) (error := some (unknown ['z'] ['d'])) (by unfold OkStr; decide) (by unfold OkStr; decide))
  obtain ⟨b1, h1⟩ := f1.1.2
  obtain ⟨b2, h2⟩ := f2.1.2
  obtain ⟨b3, h3⟩ := f3.1.2
  exact ⟨_, .cons (.value _ _ _ rfl rfl) h1 (.cons (.failed _ _ _ rfl rfl (by decide)) h2 (.cons (.unknown rfl) h3 (.nil _)))⟩

/-- The hypotheses of the theorem from end to end are met by three queries, sent byte by byte. -/
example : ∃ bs' : List Bytes, ((Client.init exEnv 2 1).recv exEnv 2 1 bs').answer 65535 = some (some [], some ['n', 'o']) := by
  obtain ⟨acts, hs⟩ := exServed (fun _ => localAccess (some "127.0.0.1".toList))
  generalize hbs : ([q1, q2, q3].flatMap fun q => ser exEnv (q.packet.val 1)).map (fun x => [x]) = bs
  have hfl : bs.flatten = [q1, q2, q3].flatMap fun q => ser exEnv (q.packet.val 1) := by
    rw [← hbs]
    generalize ([q1, q2, q3].flatMap fun q => ser exEnv (q.packet.val 1)) = l
    induction l with
    | nil => rfl
    | cons a l ih => simp [ih]
  have h := C44_end_to_end_partial (exCfg fun _ => localAccess (some "127.0.0.1".toList)) exRegistered (d := 1) rfl ['w'] [q1, q2, q3] (fun _ _ => rfl)
    (fun q hq => exPlain (exFits q hq)) (by decide) bs hfl hs (fun x hx => by
      simp only [List.zip_cons_cons, List.zip_nil_right, List.mem_cons, List.not_mem_nil, or_false] at hx
      rcases hx with rfl | rfl | rfl
      · exact exPlain (fits_response q1 (exFits q1 (by simp)) (by unfold OkStr; decide) (by simp))
      · exact exPlain (fits_response q2 (exFits q2 (by simp)) (by unfold OkStr; decide) (by unfold OkStr; decide))
      · exact exPlain (fits_response q3 (exFits q3 (by simp)) (by unfold OkStr; decide) (by unfold OkStr; decide)))
    [_] (by simp only [List.flatten_cons, List.flatten_nil, List.append_nil]; rfl)
  exact ⟨_, h.2 (q2, [], some ['n', 'o']) (by simp)⟩

/-- A function that raises an exception without a message: the response says that the request succeeded. -/
theorem C44_false_silent : (process (exCfg fun _ => true) true [] (request 5 ['q'] [])).2.1 =
      [.call ['q'] [], .write (ser exEnv ((request 5 ['q'] []).val 1))] ∧
    exApi ['q'] = some (fun _ w => (w, .raised [])) ∧ (request 5 ['q'] []).error = none := by
  refine ⟨by decide +kernel, rfl, rfl⟩

/-- The response of a request: what is written when it is processed. -/
def response {σ : Type} (c : Cfg σ) (w : σ) (p : Packet) : Bytes := written (process c true w p).2.1

/-- A result that is too long for the format: the function is called, but there is no response at all, and the exception leaves
`data_received`. -/
theorem C44_false_long {σ : Type} (c : Cfg σ) (hc : c.env.classDef c.cls = some packetDef) (ha : ∀ p, c.authorized p = true) (w w' : σ) (q : Query) (f) (s : Str)
    (hf : c.api q.cmd = some f) (hv : f q.args w = (w', .value s)) (hs : 2 ^ 16 < s.length) :
    process c true w q.packet = (w', [.call q.cmd q.args], true) := by
  have he : execute c w q.packet q.args = (w', [.call q.cmd q.args], q.response s none) := outcome_execute (.value f w' s hf hv)
  have hfail : ∀ b, serialize c.env 0 ((q.response s none).val c.cls) ≠ .ok b := by
    intro b hb
    obtain ⟨d, tags, n, h, body, hdr, hcls, ht, hn, hh, hbd, hhdr, _⟩ := encPacket_inv (base := 0) hb
    rw [hc] at hcls
    cases hcls
    rw [show packetDef.fields = fields from rfl, htags] at ht
    cases ht
    have hstr : encV c.env (.str s) .str = .error .encoding := by rw [encV, if_pos hs]
    have key : ∀ (x y z : Val) (r : FVals), ∃ e, encF c.env (.set x (.set y (.set z (.set (.str s) r)))) fields [0, 1, 2, 3, 4, 5, 6] = .error e := by
      intro x y z r
      have e4 : ∃ e, encF c.env (.set (.str s) r) (.cons "result" none false .str
          (.cons "error" none true .str (.cons "securityType" none true .str (.cons "security" none true (.list .buf) .nil)))) [3, 4, 5, 6] = .error e := by
        rw [encF, hstr]; exact ⟨.encoding, rfl⟩
      have up : ∀ (v : Val) (r : FVals) (nm : String) (t : FType) (ds : FDecls) (tag : Nat) (tags : List Nat), (∃ e, encF c.env r ds tags = .error e) →
          ∃ e, encF c.env (.set v r) (.cons nm none false t ds) (tag :: tags) = .error e := by
        intro v r nm t ds tag tags ⟨e, he⟩
        rw [encF, he]
        cases wrapE (packU 2 (tag : Int)) with
        | error e1 => exact ⟨e1, rfl⟩
        | ok b1 => cases wrapE (encV c.env v t) with
          | error e2 => exact ⟨e2, rfl⟩
          | ok b2 => exact ⟨e, rfl⟩
      exact up _ _ _ _ _ _ _ (up _ _ _ _ _ _ _ (up _ _ _ _ _ _ _ e4))
    obtain ⟨e, he⟩ := key (.num q.id) (.str q.cmd) (.list (ofList .str q.args)) (.unset (.unset (.unset .nil)))
    have : Except.error e = Except.ok body := he.symm.trans hbd
    cases this
  unfold process
  rw [ha]
  simp only [Bool.not_true, Bool.false_eq_true, if_false]
  rw [show q.packet.args = some q.args from rfl]
  dsimp only
  rw [he]
  dsimp only
  cases hser : serialize c.env 0 ((q.response s none).val c.cls) with
  | ok b => exact absurd hser (hfail b)
  | error e => rfl

/-- A query whose random id was used before: it returns the old answer, although nothing was received for it. `q` is an old query whose response has
arrived, `q'` a new one with the same id. -/
theorem C44_false_stale {env : Env} (hr : env.Registered) {depth : Nat} {cls : Cls} (q q' : Query) (hid : q'.id = q.id) (result : Str) (error : Option Str)
    (hp : Plain env cls (q.response result error)) :
    ((Client.init env (depth + 1) cls).recv env (depth + 1) cls [ser env ((q.response result error).val cls)]).answer q'.id = some (some result, error) := by
  rw [hid]
  exact C44_client_partial hr [(q, result, error)] (by simp) (by simpa using hp) _ (by simp) _ (List.mem_singleton.mpr rfl)

/-- A request without arguments (the decoder does not insist on them) makes `data_received` raise. -/
theorem C44_false_no_args {σ : Type} (c : Cfg σ) (ha : ∀ p, c.authorized p = true) (w : σ) (p : Packet) (hp : p.args = none) :
    process c true w p = (w, [], true) := by
  unfold process
  rw [ha, hp]
  rfl

/-! ## Management requests on a connection for other packets -/

theorem ofVal_some {cls : Cls} {v : Val} {p : Packet} (h : ofVal cls v = some p) : ∃ fs, v = .packet cls fs := by
  unfold ofVal at h
  split at h
  · split at h
    · next e => exact ⟨_, by rw [e]⟩
    · cases h
  · cases h

def isSpmp (cls : Cls) (v : Val) : Bool := (ofVal cls v).isSome

/-- C44: packets of any kind, in any chunks, on a connection with hidden management: the management requests are processed in the order in which they
were sent, and the main protocol gets the bytes of all the other packets, unchanged and in order. -/
theorem C44_hidden {env : Env} (hr : env.Registered) {depth : Nat} {base cls : Cls} (ps : List Val)
    (hps : ∀ p ∈ ps, Sendable env base p ∧ Decodes env (depth + 1) base (ser env p) p)
    (ops : List DOp) (hrec : received ops = ps.flatMap (ser env)) :
    ∃ rs, routes env cls (runOps env (depth + 1) base (.init env (depth + 1) base) (ops ++ [.next])).1 = some rs ∧
      (rs.filterMap fun r => match r with | .main b => some b | .spmp _ => none) = (ps.filter fun p => !isSpmp cls p).map (ser env) ∧
      (rs.filterMap fun r => match r with | .spmp p => some p | .main _ => none) = ps.filterMap (ofVal cls) := by
  rw [C02_any_chunking hr ps hps ops hrec]
  clear hrec
  induction ps with
  | nil => exact ⟨[], rfl, rfl, rfl⟩
  | cons p ps ih =>
    obtain ⟨rs, h1, h2, h3⟩ := ih (fun x hx => hps x (by simp [hx]))
    have hsend := (hps p (by simp)).1
    obtain ⟨b, hb⟩ := hsend.2
    rw [List.map_cons, routes, h1]
    cases hv : ofVal cls p with
    | some q =>
      refine ⟨.spmp q :: rs, ?_, ?_, ?_⟩
      · unfold hidden; rw [hv]
      · simp [h2, isSpmp, hv]
      · simp [h3, hv]
    | none =>
      refine ⟨.main b :: rs, ?_, ?_, ?_⟩
      · unfold hidden; rw [hv]; dsimp only; rw [hb]
      · simp [h2, isSpmp, hv, ser_eq hb]
      · simp [h3, hv]

example (ops : List DOp) (h : received ops = [q1.packet.val 1, q3.packet.val 1].flatMap (ser exEnv)) :
    ∃ rs, routes exEnv 1 (runOps exEnv 2 1 (.init exEnv 2 1) (ops ++ [.next])).1 = some rs ∧
      (rs.filterMap fun r => match r with | .spmp p => some p | .main _ => none) = [q1.packet, q3.packet] := by
  obtain ⟨rs, h1, _, h3⟩ := C44_hidden exRegistered (depth := 1) (base := 1) (cls := 1) [q1.packet.val 1, q3.packet.val 1] (by
    intro p hp
    simp only [List.mem_cons, List.not_mem_nil, or_false] at hp
    rcases hp with rfl | rfl
    · exact ⟨(exPlain (exFits q1 (by simp))).1, plain_decodes exRegistered (exPlain (exFits q1 (by simp)))⟩
    · exact ⟨(exPlain (exFits q3 (by simp))).1, plain_decodes exRegistered (exPlain (exFits q3 (by simp)))⟩) ops h
  exact ⟨rs, h1, by rw [h3]; simp [ofVal_val]⟩

/-- C44: what the deserializer reports as an error makes no difference to the packets behind it. -/
theorem C44_hidden_errors (env : Env) (cls : Cls) (evs : List Event) :
    routes env cls evs = routes env cls (evs.filter fun e => match e with | .packet _ => true | .error _ => false) := by
  induction evs with
  | nil => rfl
  | cons e l ih =>
    cases e with
    | error x => rw [routes, ih]; rfl
    | packet v => rw [List.filter_cons_of_pos (by rfl), routes, routes, ih]

example : routes exEnv 1 [.error .encoding, .packet (q1.packet.val 1)] = some [.spmp q1.packet] := by
  rw [C44_hidden_errors]
  show routes exEnv 1 [.packet (q1.packet.val 1)] = _
  rw [routes, routes]
  simp [hidden, ofVal_val]

end Verif.Spmp
