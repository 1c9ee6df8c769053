import Verif.Model.Geom
/-!
# `src/link.rs`
-/

namespace K

/-- `src/link.rs:24-30` `Geometry`. -/
inductive Geometry (T : Type) where
  | box (depth width height : T)
  | cylinder (radius length : T)
  | capsule (radius length : T)
  | sphere (radius : T)
  | mesh (filename : String) (scale : V3 T)

/-- `src/link.rs:33-38` `Color`. -/
structure Color (T : Type) where
  r : T
  g : T
  b : T
  a : T

/-- `src/link.rs:54-58` `Material` (with `Texture`, lines 41-43, as its file name). -/
structure Material (T : Type) where
  name : String
  color : Color T
  texture : String

/-- `src/link.rs:61-66` `Inertial`. -/
structure Inertial (T : Type) where
  origin : Iso T
  mass : T
  inertia : M3 T
  worldTransformCache : Option (Iso T)

/-- `src/link.rs:108-114` `Visual`. -/
structure Visual (T : Type) where
  name : String
  origin : Iso T
  geometry : Geometry T
  material : Material T
  worldTransformCache : Option (Iso T)

/-- `src/link.rs:153-158` `Collision`. -/
structure Collision (T : Type) where
  name : String
  origin : Iso T
  geometry : Geometry T
  worldTransformCache : Option (Iso T)

/-- `src/link.rs:191-196` `Link`. -/
structure Link (T : Type) where
  name : String
  inertial : Inertial T
  visuals : List (Visual T)
  collisions : List (Collision T)

variable {T : Type} [Scalar T]

/-- `src/link.rs:81-88` `Inertial::new`. -/
def Inertial.new (origin : Iso T) (mass : T) (inertia : M3 T) : Inertial T :=
  ⟨origin, mass, inertia, none⟩
/-- `src/link.rs:73-80` `Inertial::from_mass`. -/
def Inertial.fromMass (mass : T) : Inertial T := ⟨Iso.one, mass, M3.one, none⟩
/-- `src/link.rs:89-92` `Inertial::set_origin`. -/
def Inertial.setOrigin (i : Inertial T) (o : Iso T) : Inertial T :=
  { i with origin := o, worldTransformCache := none }
/-- `src/link.rs:99-101` `Inertial::set_world_transform`. -/
def Inertial.setWorldTransform (i : Inertial T) (t : Iso T) : Inertial T :=
  { i with worldTransformCache := some t }
/-- `src/link.rs:120-133` `Visual::new`. -/
def Visual.new (name : String) (origin : Iso T) (g : Geometry T) (m : Material T) : Visual T :=
  ⟨name, origin, g, m, none⟩
/-- `src/link.rs:134-137` `Visual::set_origin`. -/
def Visual.setOrigin (i : Visual T) (o : Iso T) : Visual T :=
  { i with origin := o, worldTransformCache := none }
/-- `src/link.rs:144-146` `Visual::set_world_transform`. -/
def Visual.setWorldTransform (v : Visual T) (t : Iso T) : Visual T :=
  { v with worldTransformCache := some t }
/-- `src/link.rs:164-171` `Collision::new`. -/
def Collision.new (name : String) (origin : Iso T) (g : Geometry T) : Collision T :=
  ⟨name, origin, g, none⟩
/-- `src/link.rs:172-175` `Collision::set_origin`. -/
def Collision.setOrigin (i : Collision T) (o : Iso T) : Collision T :=
  { i with origin := o, worldTransformCache := none }
/-- `src/link.rs:182-184` `Collision::set_world_transform`. -/
def Collision.setWorldTransform (c : Collision T) (t : Iso T) : Collision T :=
  { c with worldTransformCache := some t }

/-- `src/link.rs:202-209` `Link::default` and `src/link.rs:227-234` `LinkBuilder::new`: the builder
has the fields of `Link`, so the model uses `Link` for both. -/
def Link.default : Link T := ⟨"", Inertial.new Iso.one 0 M3.one, [], []⟩

/-- One call on a `LinkBuilder` (`src/link.rs:235-250`). -/
inductive LinkBuilderCall (T : Type) where
  | name (s : String)
  | inertial (i : Inertial T)
  | addVisual (v : Visual T)
  | addCollision (c : Collision T)

/-- `src/link.rs:235-250`: effect of one builder call. -/
def LinkBuilderCall.apply (b : Link T) : LinkBuilderCall T → Link T
  | .name s => { b with name := s }
  | .inertial i => { b with inertial := i }
  | .addVisual v => { b with visuals := b.visuals ++ [v] }
  | .addCollision c => { b with collisions := b.collisions ++ [c] }

/-- `LinkBuilder::new().<calls>.finalize()` (`src/link.rs:227-258`). -/
def Link.build (calls : List (LinkBuilderCall T)) : Link T :=
  calls.foldl LinkBuilderCall.apply Link.default

end K
