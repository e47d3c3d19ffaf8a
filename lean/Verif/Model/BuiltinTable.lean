import Verif.Model.Coerce
/-
GENERATED by tools/gen_builtins.py from /repo/vrml/vrml97/basenodes.py, /repo/vrml/vrml97/shaders.py, /repo/vrml/vrml97/nurbs.py.
Decimal literals are given exactly, as mantissa and number of decimals.
-/
namespace Verif.Builtin
open Verif.Coerce

/-- A default as written in a declaration: `node.NULL`, the callable `list`, or a literal. -/
inductive Dflt
  | null | empty
  | bool (b : Bool) | int (n : Int) | float (q : Int × Nat) | str (s : String)
  | ints (l : List Int) | floats (l : List (Int × Nat)) | strs (l : List String) | rows (l : List (List (Int × Nat)))
  deriving DecidableEq

/-- `name = field.newField(name, ty, exposed, dflt)` in the body of a node class. -/
structure Decl where
  cls : String
  name : String
  ty : String
  exposed : Bool
  dflt : Dflt
  deriving DecidableEq

/-- Every field declared by the built-in node classes. -/
def fieldDecls : List Decl := [
  ⟨"Anchor", "url", "MFString", true, .empty⟩,  -- vrml97/basenodes.py:7
  ⟨"Anchor", "description", "SFString", true, .str ""⟩,  -- vrml97/basenodes.py:8
  ⟨"Anchor", "bboxCenter", "SFVec3f", false, .floats [(0, 0), (0, 0), (0, 0)]⟩,  -- vrml97/basenodes.py:9
  ⟨"Anchor", "parameter", "MFString", true, .empty⟩,  -- vrml97/basenodes.py:10
  ⟨"Anchor", "children", "MFNode", true, .empty⟩,  -- vrml97/basenodes.py:11
  ⟨"Anchor", "bboxSize", "SFVec3f", false, .floats [(-1, 0), (-1, 0), (-1, 0)]⟩,  -- vrml97/basenodes.py:12
  ⟨"Appearance", "material", "SFNode", true, .null⟩,  -- vrml97/basenodes.py:20
  ⟨"Appearance", "texture", "SFNode", true, .null⟩,  -- vrml97/basenodes.py:21
  ⟨"Appearance", "textureTransform", "SFNode", true, .null⟩,  -- vrml97/basenodes.py:22
  ⟨"AudioClip", "stopTime", "SFTime", true, .float (0, 0)⟩,  -- vrml97/basenodes.py:29
  ⟨"AudioClip", "description", "SFString", true, .str ""⟩,  -- vrml97/basenodes.py:30
  ⟨"AudioClip", "startTime", "SFTime", true, .float (0, 0)⟩,  -- vrml97/basenodes.py:31
  ⟨"AudioClip", "pitch", "SFFloat", true, .float (1, 0)⟩,  -- vrml97/basenodes.py:32
  ⟨"AudioClip", "url", "MFString", true, .empty⟩,  -- vrml97/basenodes.py:33
  ⟨"AudioClip", "loop", "SFBool", true, .int (0)⟩,  -- vrml97/basenodes.py:34
  ⟨"Background", "groundAngle", "MFFloat", true, .empty⟩,  -- vrml97/basenodes.py:42
  ⟨"Background", "rightUrl", "MFString", true, .empty⟩,  -- vrml97/basenodes.py:43
  ⟨"Background", "topUrl", "MFString", true, .empty⟩,  -- vrml97/basenodes.py:44
  ⟨"Background", "backUrl", "MFString", true, .empty⟩,  -- vrml97/basenodes.py:45
  ⟨"Background", "groundColor", "MFColor", true, .empty⟩,  -- vrml97/basenodes.py:46
  ⟨"Background", "leftUrl", "MFString", true, .empty⟩,  -- vrml97/basenodes.py:47
  ⟨"Background", "frontUrl", "MFString", true, .empty⟩,  -- vrml97/basenodes.py:48
  ⟨"Background", "bottomUrl", "MFString", true, .empty⟩,  -- vrml97/basenodes.py:49
  ⟨"Background", "skyColor", "MFColor", true, .rows [[(0, 0), (0, 0), (0, 0)]]⟩,  -- vrml97/basenodes.py:50
  ⟨"Background", "skyAngle", "MFFloat", true, .empty⟩,  -- vrml97/basenodes.py:51
  ⟨"Billboard", "bboxCenter", "SFVec3f", false, .floats [(0, 0), (0, 0), (0, 0)]⟩,  -- vrml97/basenodes.py:59
  ⟨"Billboard", "axisOfRotation", "SFVec3f", true, .floats [(0, 0), (1, 0), (0, 0)]⟩,  -- vrml97/basenodes.py:60
  ⟨"Billboard", "children", "MFNode", true, .empty⟩,  -- vrml97/basenodes.py:61
  ⟨"Billboard", "bboxSize", "SFVec3f", false, .floats [(-1, 0), (-1, 0), (-1, 0)]⟩,  -- vrml97/basenodes.py:62
  ⟨"Box", "size", "SFVec3f", false, .floats [(2, 0), (2, 0), (2, 0)]⟩,  -- vrml97/basenodes.py:70
  ⟨"Collision", "bboxCenter", "SFVec3f", false, .floats [(0, 0), (0, 0), (0, 0)]⟩,  -- vrml97/basenodes.py:77
  ⟨"Collision", "collide", "SFBool", true, .int (1)⟩,  -- vrml97/basenodes.py:78
  ⟨"Collision", "proxy", "SFNode", false, .null⟩,  -- vrml97/basenodes.py:79
  ⟨"Collision", "bboxSize", "SFVec3f", false, .floats [(-1, 0), (-1, 0), (-1, 0)]⟩,  -- vrml97/basenodes.py:80
  ⟨"Collision", "children", "MFNode", true, .empty⟩,  -- vrml97/basenodes.py:81
  ⟨"Color", "color", "MFColor", true, .empty⟩,  -- vrml97/basenodes.py:90
  ⟨"ColorInterpolator", "keyValue", "MFColor", true, .empty⟩,  -- vrml97/basenodes.py:97
  ⟨"ColorInterpolator", "key", "MFFloat", true, .empty⟩,  -- vrml97/basenodes.py:98
  ⟨"Cone", "bottom", "SFBool", false, .int (1)⟩,  -- vrml97/basenodes.py:106
  ⟨"Cone", "side", "SFBool", false, .int (1)⟩,  -- vrml97/basenodes.py:107
  ⟨"Cone", "bottomRadius", "SFFloat", false, .float (1, 0)⟩,  -- vrml97/basenodes.py:108
  ⟨"Cone", "height", "SFFloat", false, .float (2, 0)⟩,  -- vrml97/basenodes.py:109
  ⟨"Coordinate", "point", "MFVec3f", true, .empty⟩,  -- vrml97/basenodes.py:116
  ⟨"CoordinateInterpolator", "keyValue", "MFVec3f", true, .empty⟩,  -- vrml97/basenodes.py:123
  ⟨"CoordinateInterpolator", "key", "MFFloat", true, .empty⟩,  -- vrml97/basenodes.py:124
  ⟨"Cylinder", "top", "SFBool", false, .int (1)⟩,  -- vrml97/basenodes.py:132
  ⟨"Cylinder", "bottom", "SFBool", false, .int (1)⟩,  -- vrml97/basenodes.py:133
  ⟨"Cylinder", "radius", "SFFloat", false, .float (1, 0)⟩,  -- vrml97/basenodes.py:134
  ⟨"Cylinder", "side", "SFBool", false, .int (1)⟩,  -- vrml97/basenodes.py:135
  ⟨"Cylinder", "height", "SFFloat", false, .float (2, 0)⟩,  -- vrml97/basenodes.py:136
  ⟨"CylinderSensor", "minAngle", "SFFloat", true, .float (0, 0)⟩,  -- vrml97/basenodes.py:143
  ⟨"CylinderSensor", "offset", "SFFloat", true, .float (0, 0)⟩,  -- vrml97/basenodes.py:144
  ⟨"CylinderSensor", "diskAngle", "SFFloat", true, .float (26200000000000001, 17)⟩,  -- vrml97/basenodes.py:145
  ⟨"CylinderSensor", "enabled", "SFBool", true, .int (1)⟩,  -- vrml97/basenodes.py:146
  ⟨"CylinderSensor", "autoOffset", "SFBool", true, .int (1)⟩,  -- vrml97/basenodes.py:147
  ⟨"CylinderSensor", "maxAngle", "SFFloat", true, .float (-1, 0)⟩,  -- vrml97/basenodes.py:148
  ⟨"DirectionalLight", "color", "SFColor", true, .floats [(1, 0), (1, 0), (1, 0)]⟩,  -- vrml97/basenodes.py:157
  ⟨"DirectionalLight", "on", "SFBool", true, .int (1)⟩,  -- vrml97/basenodes.py:158
  ⟨"DirectionalLight", "intensity", "SFFloat", true, .float (1, 0)⟩,  -- vrml97/basenodes.py:159
  ⟨"DirectionalLight", "ambientIntensity", "SFFloat", true, .float (0, 0)⟩,  -- vrml97/basenodes.py:160
  ⟨"DirectionalLight", "direction", "SFVec3f", true, .floats [(0, 0), (0, 0), (-1, 0)]⟩,  -- vrml97/basenodes.py:161
  ⟨"ElevationGrid", "zDimension", "SFInt32", false, .int (0)⟩,  -- vrml97/basenodes.py:168
  ⟨"ElevationGrid", "xSpacing", "SFFloat", false, .float (0, 0)⟩,  -- vrml97/basenodes.py:169
  ⟨"ElevationGrid", "creaseAngle", "SFFloat", false, .float (0, 0)⟩,  -- vrml97/basenodes.py:170
  ⟨"ElevationGrid", "normal", "SFNode", true, .null⟩,  -- vrml97/basenodes.py:171
  ⟨"ElevationGrid", "solid", "SFBool", false, .int (1)⟩,  -- vrml97/basenodes.py:172
  ⟨"ElevationGrid", "ccw", "SFBool", false, .int (1)⟩,  -- vrml97/basenodes.py:173
  ⟨"ElevationGrid", "texCoord", "SFNode", true, .null⟩,  -- vrml97/basenodes.py:174
  ⟨"ElevationGrid", "height", "MFFloat", false, .empty⟩,  -- vrml97/basenodes.py:175
  ⟨"ElevationGrid", "color", "SFNode", true, .null⟩,  -- vrml97/basenodes.py:176
  ⟨"ElevationGrid", "colorPerVertex", "SFBool", false, .int (1)⟩,  -- vrml97/basenodes.py:177
  ⟨"ElevationGrid", "xDimension", "SFInt32", false, .int (0)⟩,  -- vrml97/basenodes.py:178
  ⟨"ElevationGrid", "zSpacing", "SFFloat", false, .float (0, 0)⟩,  -- vrml97/basenodes.py:179
  ⟨"ElevationGrid", "normalPerVertex", "SFBool", false, .int (1)⟩,  -- vrml97/basenodes.py:180
  ⟨"Extrusion", "beginCap", "SFBool", false, .int (1)⟩,  -- vrml97/basenodes.py:187
  ⟨"Extrusion", "scale", "MFVec2f", false, .rows [[(1, 0), (1, 0)]]⟩,  -- vrml97/basenodes.py:188
  ⟨"Extrusion", "creaseAngle", "SFFloat", false, .float (0, 0)⟩,  -- vrml97/basenodes.py:189
  ⟨"Extrusion", "convex", "SFBool", false, .int (1)⟩,  -- vrml97/basenodes.py:190
  ⟨"Extrusion", "spine", "MFVec3f", false, .rows [[(0, 0), (0, 0), (0, 0)], [(0, 0), (1, 0), (0, 0)]]⟩,  -- vrml97/basenodes.py:191
  ⟨"Extrusion", "crossSection", "MFVec2f", false, .rows [[(1, 0), (1, 0)], [(1, 0), (-1, 0)], [(-1, 0), (-1, 0)], [(-1, 0), (1, 0)], [(1, 0), (1, 0)]]⟩,  -- vrml97/basenodes.py:192
  ⟨"Extrusion", "ccw", "SFBool", false, .int (1)⟩,  -- vrml97/basenodes.py:193
  ⟨"Extrusion", "solid", "SFBool", false, .int (1)⟩,  -- vrml97/basenodes.py:194
  ⟨"Extrusion", "endCap", "SFBool", false, .int (1)⟩,  -- vrml97/basenodes.py:195
  ⟨"Extrusion", "orientation", "MFRotation", false, .rows [[(0, 0), (0, 0), (1, 0), (0, 0)]]⟩,  -- vrml97/basenodes.py:196
  ⟨"Fog", "color", "SFColor", true, .floats [(1, 0), (1, 0), (1, 0)]⟩,  -- vrml97/basenodes.py:206
  ⟨"Fog", "visibilityRange", "SFFloat", true, .float (0, 0)⟩,  -- vrml97/basenodes.py:207
  ⟨"Fog", "fogType", "SFString", true, .str "LINEAR"⟩,  -- vrml97/basenodes.py:208
  ⟨"FontStyle", "style", "SFString", false, .str "PLAIN"⟩,  -- vrml97/basenodes.py:216
  ⟨"FontStyle", "topToBottom", "SFBool", false, .int (1)⟩,  -- vrml97/basenodes.py:217
  ⟨"FontStyle", "family", "MFString", false, .str "SERIF"⟩,  -- vrml97/basenodes.py:218
  ⟨"FontStyle", "language", "SFString", false, .str ""⟩,  -- vrml97/basenodes.py:219
  ⟨"FontStyle", "horizontal", "SFBool", false, .int (1)⟩,  -- vrml97/basenodes.py:220
  ⟨"FontStyle", "justify", "MFString", false, .strs ["BEGIN"]⟩,  -- vrml97/basenodes.py:221
  ⟨"FontStyle", "spacing", "SFFloat", false, .float (1, 0)⟩,  -- vrml97/basenodes.py:222
  ⟨"FontStyle", "leftToRight", "SFBool", false, .int (1)⟩,  -- vrml97/basenodes.py:223
  ⟨"FontStyle", "size", "SFFloat", false, .float (1, 0)⟩,  -- vrml97/basenodes.py:224
  ⟨"Group", "bboxCenter", "SFVec3f", false, .floats [(0, 0), (0, 0), (0, 0)]⟩,  -- vrml97/basenodes.py:232
  ⟨"Group", "children", "MFNode", true, .empty⟩,  -- vrml97/basenodes.py:233
  ⟨"Group", "bboxSize", "SFVec3f", false, .floats [(-1, 0), (-1, 0), (-1, 0)]⟩,  -- vrml97/basenodes.py:234
  ⟨"ImageTexture", "url", "MFString", true, .empty⟩,  -- vrml97/basenodes.py:242
  ⟨"ImageTexture", "repeatS", "SFBool", false, .int (1)⟩,  -- vrml97/basenodes.py:243
  ⟨"ImageTexture", "repeatT", "SFBool", false, .int (1)⟩,  -- vrml97/basenodes.py:244
  ⟨"IndexedFaceSet", "colorIndex", "MFInt32", false, .empty⟩,  -- vrml97/basenodes.py:251
  ⟨"IndexedFaceSet", "normal", "SFNode", true, .null⟩,  -- vrml97/basenodes.py:252
  ⟨"IndexedFaceSet", "solid", "SFBool", false, .int (1)⟩,  -- vrml97/basenodes.py:253
  ⟨"IndexedFaceSet", "ccw", "SFBool", false, .int (1)⟩,  -- vrml97/basenodes.py:254
  ⟨"IndexedFaceSet", "coordIndex", "MFInt32", false, .empty⟩,  -- vrml97/basenodes.py:255
  ⟨"IndexedFaceSet", "texCoord", "SFNode", true, .null⟩,  -- vrml97/basenodes.py:256
  ⟨"IndexedFaceSet", "normalPerVertex", "SFBool", false, .int (1)⟩,  -- vrml97/basenodes.py:257
  ⟨"IndexedFaceSet", "color", "SFNode", true, .null⟩,  -- vrml97/basenodes.py:258
  ⟨"IndexedFaceSet", "colorPerVertex", "SFBool", false, .int (1)⟩,  -- vrml97/basenodes.py:259
  ⟨"IndexedFaceSet", "coord", "SFNode", true, .null⟩,  -- vrml97/basenodes.py:260
  ⟨"IndexedFaceSet", "convex", "SFBool", false, .int (1)⟩,  -- vrml97/basenodes.py:261
  ⟨"IndexedFaceSet", "normalIndex", "MFInt32", false, .empty⟩,  -- vrml97/basenodes.py:262
  ⟨"IndexedFaceSet", "texCoordIndex", "MFInt32", false, .empty⟩,  -- vrml97/basenodes.py:263
  ⟨"IndexedFaceSet", "creaseAngle", "SFFloat", false, .float (0, 0)⟩,  -- vrml97/basenodes.py:264
  ⟨"IndexedLineSet", "color", "SFNode", true, .null⟩,  -- vrml97/basenodes.py:274
  ⟨"IndexedLineSet", "colorPerVertex", "SFBool", false, .int (1)⟩,  -- vrml97/basenodes.py:275
  ⟨"IndexedLineSet", "colorIndex", "MFInt32", false, .empty⟩,  -- vrml97/basenodes.py:276
  ⟨"IndexedLineSet", "coord", "SFNode", true, .null⟩,  -- vrml97/basenodes.py:277
  ⟨"IndexedLineSet", "coordIndex", "MFInt32", false, .empty⟩,  -- vrml97/basenodes.py:278
  ⟨"Inline", "url", "MFString", true, .empty⟩,  -- vrml97/basenodes.py:286
  ⟨"Inline", "bboxCenter", "SFVec3f", false, .floats [(0, 0), (0, 0), (0, 0)]⟩,  -- vrml97/basenodes.py:287
  ⟨"Inline", "bboxSize", "SFVec3f", false, .floats [(-1, 0), (-1, 0), (-1, 0)]⟩,  -- vrml97/basenodes.py:288
  ⟨"LOD", "range", "MFFloat", false, .empty⟩,  -- vrml97/basenodes.py:295
  ⟨"LOD", "center", "SFVec3f", false, .floats [(0, 0), (0, 0), (0, 0)]⟩,  -- vrml97/basenodes.py:296
  ⟨"LOD", "level", "MFNode", true, .empty⟩,  -- vrml97/basenodes.py:297
  ⟨"Material", "specularColor", "SFColor", true, .floats [(0, 0), (0, 0), (0, 0)]⟩,  -- vrml97/basenodes.py:304
  ⟨"Material", "emissiveColor", "SFColor", true, .floats [(0, 0), (0, 0), (0, 0)]⟩,  -- vrml97/basenodes.py:305
  ⟨"Material", "transparency", "SFFloat", true, .float (0, 0)⟩,  -- vrml97/basenodes.py:306
  ⟨"Material", "diffuseColor", "SFColor", true, .floats [(80000000000000004, 17), (80000000000000004, 17), (80000000000000004, 17)]⟩,  -- vrml97/basenodes.py:307
  ⟨"Material", "ambientIntensity", "SFFloat", true, .float (20000000000000001, 17)⟩,  -- vrml97/basenodes.py:308
  ⟨"Material", "shininess", "SFFloat", true, .float (20000000000000001, 17)⟩,  -- vrml97/basenodes.py:309
  ⟨"MovieTexture", "stopTime", "SFTime", true, .float (0, 0)⟩,  -- vrml97/basenodes.py:316
  ⟨"MovieTexture", "startTime", "SFTime", true, .float (0, 0)⟩,  -- vrml97/basenodes.py:317
  ⟨"MovieTexture", "url", "MFString", true, .empty⟩,  -- vrml97/basenodes.py:318
  ⟨"MovieTexture", "speed", "SFFloat", true, .float (1, 0)⟩,  -- vrml97/basenodes.py:319
  ⟨"MovieTexture", "repeatS", "SFBool", false, .int (1)⟩,  -- vrml97/basenodes.py:320
  ⟨"MovieTexture", "repeatT", "SFBool", false, .int (1)⟩,  -- vrml97/basenodes.py:321
  ⟨"MovieTexture", "loop", "SFBool", true, .int (0)⟩,  -- vrml97/basenodes.py:322
  ⟨"NavigationInfo", "speed", "SFFloat", true, .float (1, 0)⟩,  -- vrml97/basenodes.py:330
  ⟨"NavigationInfo", "avatarSize", "MFFloat", true, .floats [(25, 2), (16000000000000001, 16), (75, 2)]⟩,  -- vrml97/basenodes.py:331
  ⟨"NavigationInfo", "headlight", "SFBool", true, .int (1)⟩,  -- vrml97/basenodes.py:332
  ⟨"NavigationInfo", "type", "MFString", true, .strs ["WALK"]⟩,  -- vrml97/basenodes.py:333
  ⟨"NavigationInfo", "visibilityLimit", "SFFloat", true, .float (0, 0)⟩,  -- vrml97/basenodes.py:334
  ⟨"Normal", "vector", "MFVec3f", true, .empty⟩,  -- vrml97/basenodes.py:342
  ⟨"NormalInterpolator", "keyValue", "MFVec3f", true, .empty⟩,  -- vrml97/basenodes.py:349
  ⟨"NormalInterpolator", "key", "MFFloat", true, .empty⟩,  -- vrml97/basenodes.py:350
  ⟨"OrientationInterpolator", "keyValue", "MFRotation", true, .empty⟩,  -- vrml97/basenodes.py:358
  ⟨"OrientationInterpolator", "key", "MFFloat", true, .empty⟩,  -- vrml97/basenodes.py:359
  ⟨"PixelTexture", "image", "SFImage", true, .ints [0, 0, 0]⟩,  -- vrml97/basenodes.py:367
  ⟨"PixelTexture", "repeatS", "SFBool", false, .int (1)⟩,  -- vrml97/basenodes.py:368
  ⟨"PixelTexture", "repeatT", "SFBool", false, .int (1)⟩,  -- vrml97/basenodes.py:369
  ⟨"PlaneSensor", "maxPosition", "SFVec2f", true, .floats [(-1, 0), (-1, 0)]⟩,  -- vrml97/basenodes.py:376
  ⟨"PlaneSensor", "enabled", "SFBool", true, .int (1)⟩,  -- vrml97/basenodes.py:377
  ⟨"PlaneSensor", "autoOffset", "SFBool", true, .int (1)⟩,  -- vrml97/basenodes.py:378
  ⟨"PlaneSensor", "minPosition", "SFVec2f", true, .floats [(0, 0), (0, 0)]⟩,  -- vrml97/basenodes.py:379
  ⟨"PlaneSensor", "offset", "SFVec3f", true, .floats [(0, 0), (0, 0), (0, 0)]⟩,  -- vrml97/basenodes.py:380
  ⟨"PointLight", "on", "SFBool", true, .int (1)⟩,  -- vrml97/basenodes.py:389
  ⟨"PointLight", "intensity", "SFFloat", true, .float (1, 0)⟩,  -- vrml97/basenodes.py:390
  ⟨"PointLight", "attenuation", "SFVec3f", true, .floats [(1, 0), (0, 0), (0, 0)]⟩,  -- vrml97/basenodes.py:391
  ⟨"PointLight", "radius", "SFFloat", true, .float (100, 0)⟩,  -- vrml97/basenodes.py:392
  ⟨"PointLight", "location", "SFVec3f", true, .floats [(0, 0), (0, 0), (0, 0)]⟩,  -- vrml97/basenodes.py:393
  ⟨"PointLight", "color", "SFColor", true, .floats [(1, 0), (1, 0), (1, 0)]⟩,  -- vrml97/basenodes.py:394
  ⟨"PointLight", "ambientIntensity", "SFFloat", true, .float (0, 0)⟩,  -- vrml97/basenodes.py:395
  ⟨"PointSet", "color", "SFNode", true, .null⟩,  -- vrml97/basenodes.py:402
  ⟨"PointSet", "coord", "SFNode", true, .null⟩,  -- vrml97/basenodes.py:403
  ⟨"PointSet", "size", "SFFloat", true, .float (1, 0)⟩,  -- vrml97/basenodes.py:405
  ⟨"PointSet", "minSize", "SFFloat", true, .float (0, 0)⟩,  -- vrml97/basenodes.py:406
  ⟨"PointSet", "maxSize", "SFFloat", true, .float (1, 0)⟩,  -- vrml97/basenodes.py:407
  ⟨"PointSet", "attenuation", "SFVec3f", true, .floats [(1, 0), (0, 0), (0, 0)]⟩,  -- vrml97/basenodes.py:408
  ⟨"PositionInterpolator", "keyValue", "MFVec3f", true, .empty⟩,  -- vrml97/basenodes.py:414
  ⟨"PositionInterpolator", "key", "MFFloat", true, .empty⟩,  -- vrml97/basenodes.py:415
  ⟨"ProximitySensor", "enabled", "SFBool", true, .int (1)⟩,  -- vrml97/basenodes.py:423
  ⟨"ProximitySensor", "center", "SFVec3f", true, .floats [(0, 0), (0, 0), (0, 0)]⟩,  -- vrml97/basenodes.py:424
  ⟨"ProximitySensor", "size", "SFVec3f", true, .floats [(0, 0), (0, 0), (0, 0)]⟩,  -- vrml97/basenodes.py:425
  ⟨"ScalarInterpolator", "keyValue", "MFFloat", true, .empty⟩,  -- vrml97/basenodes.py:436
  ⟨"ScalarInterpolator", "key", "MFFloat", true, .empty⟩,  -- vrml97/basenodes.py:437
  ⟨"Shape", "geometry", "SFNode", true, .null⟩,  -- vrml97/basenodes.py:445
  ⟨"Shape", "appearance", "SFNode", true, .null⟩,  -- vrml97/basenodes.py:446
  ⟨"Sound", "priority", "SFFloat", true, .float (0, 0)⟩,  -- vrml97/basenodes.py:453
  ⟨"Sound", "minFront", "SFFloat", true, .float (1, 0)⟩,  -- vrml97/basenodes.py:454
  ⟨"Sound", "intensity", "SFFloat", true, .float (1, 0)⟩,  -- vrml97/basenodes.py:455
  ⟨"Sound", "location", "SFVec3f", true, .floats [(0, 0), (0, 0), (0, 0)]⟩,  -- vrml97/basenodes.py:456
  ⟨"Sound", "source", "SFNode", true, .null⟩,  -- vrml97/basenodes.py:457
  ⟨"Sound", "maxBack", "SFFloat", true, .float (10, 0)⟩,  -- vrml97/basenodes.py:458
  ⟨"Sound", "minBack", "SFFloat", true, .float (1, 0)⟩,  -- vrml97/basenodes.py:459
  ⟨"Sound", "maxFront", "SFFloat", true, .float (10, 0)⟩,  -- vrml97/basenodes.py:460
  ⟨"Sound", "spatialize", "SFBool", false, .int (1)⟩,  -- vrml97/basenodes.py:461
  ⟨"Sound", "direction", "SFVec3f", true, .floats [(0, 0), (0, 0), (1, 0)]⟩,  -- vrml97/basenodes.py:462
  ⟨"Sphere", "radius", "SFFloat", false, .float (1, 0)⟩,  -- vrml97/basenodes.py:469
  ⟨"SphereSensor", "enabled", "SFBool", true, .int (1)⟩,  -- vrml97/basenodes.py:476
  ⟨"SphereSensor", "autoOffset", "SFBool", true, .int (1)⟩,  -- vrml97/basenodes.py:477
  ⟨"SphereSensor", "offset", "SFRotation", true, .floats [(0, 0), (1, 0), (0, 0), (0, 0)]⟩,  -- vrml97/basenodes.py:478
  ⟨"SpotLight", "on", "SFBool", true, .int (1)⟩,  -- vrml97/basenodes.py:487
  ⟨"SpotLight", "direction", "SFVec3f", true, .floats [(0, 0), (0, 0), (-1, 0)]⟩,  -- vrml97/basenodes.py:488
  ⟨"SpotLight", "attenuation", "SFVec3f", true, .floats [(1, 0), (0, 0), (0, 0)]⟩,  -- vrml97/basenodes.py:489
  ⟨"SpotLight", "radius", "SFFloat", true, .float (100, 0)⟩,  -- vrml97/basenodes.py:490
  ⟨"SpotLight", "location", "SFVec3f", true, .floats [(0, 0), (0, 0), (0, 0)]⟩,  -- vrml97/basenodes.py:491
  ⟨"SpotLight", "intensity", "SFFloat", true, .float (1, 0)⟩,  -- vrml97/basenodes.py:492
  ⟨"SpotLight", "color", "SFColor", true, .floats [(1, 0), (1, 0), (1, 0)]⟩,  -- vrml97/basenodes.py:493
  ⟨"SpotLight", "ambientIntensity", "SFFloat", true, .float (0, 0)⟩,  -- vrml97/basenodes.py:494
  ⟨"SpotLight", "beamWidth", "SFFloat", true, .float (15707960000000001, 16)⟩,  -- vrml97/basenodes.py:495
  ⟨"SpotLight", "cutOffAngle", "SFFloat", true, .float (78539800000000004, 17)⟩,  -- vrml97/basenodes.py:496
  ⟨"Switch", "whichChoice", "SFInt32", true, .int (-1)⟩,  -- vrml97/basenodes.py:503
  ⟨"Switch", "choice", "MFNode", true, .empty⟩,  -- vrml97/basenodes.py:504
  ⟨"Text", "length", "MFFloat", true, .empty⟩,  -- vrml97/basenodes.py:511
  ⟨"Text", "fontStyle", "SFNode", true, .null⟩,  -- vrml97/basenodes.py:512
  ⟨"Text", "string", "MFString", true, .empty⟩,  -- vrml97/basenodes.py:513
  ⟨"Text", "maxExtent", "SFFloat", true, .float (0, 0)⟩,  -- vrml97/basenodes.py:514
  ⟨"TextureCoordinate", "point", "MFVec2f", true, .empty⟩,  -- vrml97/basenodes.py:521
  ⟨"TextureTransform", "rotation", "SFFloat", true, .float (0, 0)⟩,  -- vrml97/basenodes.py:528
  ⟨"TextureTransform", "scale", "SFVec2f", true, .floats [(1, 0), (1, 0)]⟩,  -- vrml97/basenodes.py:529
  ⟨"TextureTransform", "translation", "SFVec2f", true, .floats [(0, 0), (0, 0)]⟩,  -- vrml97/basenodes.py:530
  ⟨"TextureTransform", "center", "SFVec2f", true, .floats [(0, 0), (0, 0)]⟩,  -- vrml97/basenodes.py:531
  ⟨"TimeSensor", "cycleInterval", "SFTime", true, .float (1, 0)⟩,  -- vrml97/basenodes.py:538
  ⟨"TimeSensor", "stopTime", "SFTime", true, .float (0, 0)⟩,  -- vrml97/basenodes.py:539
  ⟨"TimeSensor", "enabled", "SFBool", true, .int (1)⟩,  -- vrml97/basenodes.py:540
  ⟨"TimeSensor", "loop", "SFBool", true, .int (0)⟩,  -- vrml97/basenodes.py:541
  ⟨"TimeSensor", "startTime", "SFTime", true, .float (0, 0)⟩,  -- vrml97/basenodes.py:542
  ⟨"TouchSensor", "enabled", "SFBool", true, .int (1)⟩,  -- vrml97/basenodes.py:552
  ⟨"Transform", "scale", "SFVec3f", true, .floats [(1, 0), (1, 0), (1, 0)]⟩,  -- vrml97/basenodes.py:564
  ⟨"Transform", "center", "SFVec3f", true, .floats [(0, 0), (0, 0), (0, 0)]⟩,  -- vrml97/basenodes.py:565
  ⟨"Transform", "bboxCenter", "SFVec3f", false, .floats [(0, 0), (0, 0), (0, 0)]⟩,  -- vrml97/basenodes.py:566
  ⟨"Transform", "translation", "SFVec3f", true, .floats [(0, 0), (0, 0), (0, 0)]⟩,  -- vrml97/basenodes.py:567
  ⟨"Transform", "scaleOrientation", "SFRotation", true, .floats [(0, 0), (0, 0), (1, 0), (0, 0)]⟩,  -- vrml97/basenodes.py:568
  ⟨"Transform", "rotation", "SFRotation", true, .floats [(0, 0), (0, 0), (1, 0), (0, 0)]⟩,  -- vrml97/basenodes.py:569
  ⟨"Transform", "bboxSize", "SFVec3f", false, .floats [(-1, 0), (-1, 0), (-1, 0)]⟩,  -- vrml97/basenodes.py:570
  ⟨"Transform", "children", "MFNode", true, .empty⟩,  -- vrml97/basenodes.py:571
  ⟨"Viewpoint", "jump", "SFBool", true, .int (1)⟩,  -- vrml97/basenodes.py:619
  ⟨"Viewpoint", "position", "SFVec3f", true, .floats [(0, 0), (0, 0), (10, 0)]⟩,  -- vrml97/basenodes.py:620
  ⟨"Viewpoint", "fieldOfView", "SFFloat", true, .float (78539800000000004, 17)⟩,  -- vrml97/basenodes.py:621
  ⟨"Viewpoint", "orientation", "SFRotation", true, .floats [(0, 0), (0, 0), (1, 0), (0, 0)]⟩,  -- vrml97/basenodes.py:622
  ⟨"Viewpoint", "description", "SFString", false, .str ""⟩,  -- vrml97/basenodes.py:623
  ⟨"VisibilitySensor", "enabled", "SFBool", true, .int (1)⟩,  -- vrml97/basenodes.py:632
  ⟨"VisibilitySensor", "center", "SFVec3f", true, .floats [(0, 0), (0, 0), (0, 0)]⟩,  -- vrml97/basenodes.py:633
  ⟨"VisibilitySensor", "size", "SFVec3f", true, .floats [(0, 0), (0, 0), (0, 0)]⟩,  -- vrml97/basenodes.py:634
  ⟨"WorldInfo", "info", "MFString", false, .empty⟩,  -- vrml97/basenodes.py:643
  ⟨"WorldInfo", "title", "SFString", false, .str ""⟩,  -- vrml97/basenodes.py:644
  ⟨"ShaderGeometry", "indices", "MFInt32", true, .empty⟩,  -- vrml97/shaders.py:22
  ⟨"ShaderGeometry", "attributes", "MFNode", true, .empty⟩,  -- vrml97/shaders.py:23
  ⟨"ShaderGeometry", "slices", "MFNode", true, .empty⟩,  -- vrml97/shaders.py:24
  ⟨"ShaderGeometry", "uniforms", "MFNode", true, .empty⟩,  -- vrml97/shaders.py:25
  ⟨"ShaderGeometry", "appearance", "SFNode", true, .empty⟩,  -- vrml97/shaders.py:26
  ⟨"ShaderSlice", "offset", "SFUInt32", true, .int (-1)⟩,  -- vrml97/shaders.py:30
  ⟨"ShaderSlice", "count", "SFUInt32", true, .int (-1)⟩,  -- vrml97/shaders.py:31
  ⟨"ShaderSlice", "uniforms", "MFNode", true, .empty⟩,  -- vrml97/shaders.py:32
  ⟨"ShaderAttribute", "name", "SFString", true, .str ""⟩,  -- vrml97/shaders.py:37
  ⟨"ShaderAttribute", "offset", "SFUInt32", true, .int (0)⟩,  -- vrml97/shaders.py:38
  ⟨"ShaderAttribute", "stride", "SFUInt32", true, .int (0)⟩,  -- vrml97/shaders.py:39
  ⟨"ShaderAttribute", "size", "SFUInt32", true, .int (3)⟩,  -- vrml97/shaders.py:40
  ⟨"ShaderAttribute", "dataType", "SFString", true, .str "FLOAT"⟩,  -- vrml97/shaders.py:41
  ⟨"ShaderAttribute", "buffer", "SFNode", true, .null⟩,  -- vrml97/shaders.py:43
  ⟨"ShaderAttribute", "isCoord", "SFBool", true, .bool false⟩,  -- vrml97/shaders.py:44
  ⟨"ShaderAttribute", "bufferKey", "SFString", true, .str ""⟩,  -- vrml97/shaders.py:45
  ⟨"ShaderBuffer", "type", "SFString", true, .str "ARRAY"⟩,  -- vrml97/shaders.py:49
  ⟨"ShaderBuffer", "usage", "SFString", true, .str "DYNAMIC_DRAW"⟩,  -- vrml97/shaders.py:50
  ⟨"ShaderBuffer", "buffer", "SFArray32", true, .empty⟩,  -- vrml97/shaders.py:51
  ⟨"ShaderIndexBuffer", "type", "SFString", true, .str "ELEMENT"⟩,  -- vrml97/shaders.py:54
  ⟨"ShaderIndexBuffer", "usage", "SFString", true, .str "DYNAMIC_DRAW"⟩,  -- vrml97/shaders.py:55
  ⟨"ShaderIndexBuffer", "buffer", "MFUInt32", true, .empty⟩,  -- vrml97/shaders.py:56
  ⟨"FloatUniform", "name", "SFString", true, .str ""⟩,  -- vrml97/shaders.py:66
  ⟨"FloatUniform", "value", "SFArray32", true, .empty⟩,  -- vrml97/shaders.py:68
  ⟨"IntUniform", "name", "SFString", true, .str ""⟩,  -- vrml97/shaders.py:74
  ⟨"IntUniform", "value", "MFInt32", true, .empty⟩,  -- vrml97/shaders.py:76
  ⟨"TextureUniform", "name", "SFString", true, .str ""⟩,  -- vrml97/shaders.py:81
  ⟨"TextureUniform", "value", "SFNode", true, .null⟩,  -- vrml97/shaders.py:82
  ⟨"TextureBufferUniform", "name", "SFString", true, .str ""⟩,  -- vrml97/shaders.py:86
  ⟨"TextureBufferUniform", "value", "SFNode", true, .null⟩,  -- vrml97/shaders.py:87
  ⟨"TextureBufferUniform", "format", "SFString", true, .str "RGBA32F"⟩,  -- vrml97/shaders.py:88
  ⟨"GLSLShader", "url", "MFString", true, .empty⟩,  -- vrml97/shaders.py:93
  ⟨"GLSLShader", "source", "MFString", true, .empty⟩,  -- vrml97/shaders.py:94
  ⟨"GLSLShader", "imports", "MFNode", true, .empty⟩,  -- vrml97/shaders.py:95
  ⟨"GLSLShader", "type", "SFString", true, .str "VERTEX"⟩,  -- vrml97/shaders.py:97
  ⟨"GLSLImport", "url", "MFString", true, .empty⟩,  -- vrml97/shaders.py:102
  ⟨"GLSLImport", "source", "MFString", true, .empty⟩,  -- vrml97/shaders.py:103
  ⟨"GLSLObject", "role", "SFString", true, .str "VISIBLE"⟩,  -- vrml97/shaders.py:109
  ⟨"GLSLObject", "uniforms", "MFNode", true, .empty⟩,  -- vrml97/shaders.py:110
  ⟨"GLSLObject", "shaders", "MFNode", true, .empty⟩,  -- vrml97/shaders.py:111
  ⟨"GLSLObject", "textures", "MFNode", true, .empty⟩,  -- vrml97/shaders.py:113
  ⟨"Shader", "material", "SFNode", true, .null⟩,  -- vrml97/shaders.py:119
  ⟨"Shader", "objects", "MFNode", true, .empty⟩,  -- vrml97/shaders.py:120
  ⟨"Shader", "implementation", "SFNode", true, .null⟩,  -- vrml97/shaders.py:122
  ⟨"Contour2D", "children", "MFNode", true, .empty⟩,  -- vrml97/nurbs.py:20
  ⟨"Polyline2D", "point", "MFVec2f", true, .empty⟩,  -- vrml97/nurbs.py:25
  ⟨"NurbsCurve2D", "knot", "MFFloat32", true, .empty⟩,  -- vrml97/nurbs.py:29
  ⟨"NurbsCurve2D", "order", "SFInt32", true, .int (3)⟩,  -- vrml97/nurbs.py:30
  ⟨"NurbsCurve2D", "controlPoint", "MFVec2f", true, .empty⟩,  -- vrml97/nurbs.py:31
  ⟨"NurbsCurve2D", "weight", "MFFloat32", true, .empty⟩,  -- vrml97/nurbs.py:32
  ⟨"NurbsCurve2D", "tessellation", "SFInt32", true, .int (0)⟩,  -- vrml97/nurbs.py:33
  ⟨"NurbsCurve", "knot", "MFFloat32", true, .empty⟩,  -- vrml97/nurbs.py:40
  ⟨"NurbsCurve", "order", "SFInt32", true, .int (3)⟩,  -- vrml97/nurbs.py:41
  ⟨"NurbsCurve", "controlPoint", "MFVec3f", true, .empty⟩,  -- vrml97/nurbs.py:42
  ⟨"NurbsCurve", "color", "MFColor", true, .empty⟩,  -- vrml97/nurbs.py:43
  ⟨"NurbsCurve", "weight", "MFFloat32", true, .empty⟩,  -- vrml97/nurbs.py:44
  ⟨"NurbsCurve", "tessellation", "SFInt32", true, .int (0)⟩,  -- vrml97/nurbs.py:45
  ⟨"NurbsSurface", "uDimension", "SFInt32", true, .int (0)⟩,  -- vrml97/nurbs.py:50
  ⟨"NurbsSurface", "vDimension", "SFInt32", true, .int (0)⟩,  -- vrml97/nurbs.py:51
  ⟨"NurbsSurface", "uKnot", "MFFloat32", true, .empty⟩,  -- vrml97/nurbs.py:52
  ⟨"NurbsSurface", "vKnot", "MFFloat32", true, .empty⟩,  -- vrml97/nurbs.py:53
  ⟨"NurbsSurface", "uOrder", "SFInt32", true, .int (3)⟩,  -- vrml97/nurbs.py:54
  ⟨"NurbsSurface", "vOrder", "SFInt32", true, .int (3)⟩,  -- vrml97/nurbs.py:55
  ⟨"NurbsSurface", "controlPoint", "MFVec3f", true, .empty⟩,  -- vrml97/nurbs.py:56
  ⟨"NurbsSurface", "color", "MFColor", true, .empty⟩,  -- vrml97/nurbs.py:57
  ⟨"NurbsSurface", "weight", "MFFloat32", true, .empty⟩,  -- vrml97/nurbs.py:58
  ⟨"NurbsSurface", "uTessellation", "SFInt32", true, .int (0)⟩,  -- vrml97/nurbs.py:59
  ⟨"NurbsSurface", "vTessellation", "SFInt32", true, .int (0)⟩,  -- vrml97/nurbs.py:60
  ⟨"NurbsSurface", "texCoord", "SFNode", true, .null⟩,  -- vrml97/nurbs.py:61
  ⟨"NurbsSurface", "solid", "SFBool", false, .int (1)⟩,  -- vrml97/nurbs.py:62
  ⟨"NurbsSurface", "ccw", "SFBool", false, .int (1)⟩,  -- vrml97/nurbs.py:63
  ⟨"TrimmedSurface", "trimmingContour", "MFNode", true, .empty⟩,  -- vrml97/nurbs.py:68
  ⟨"TrimmedSurface", "surface", "SFNode", true, .null⟩,  -- vrml97/nurbs.py:69
  ⟨"NurbsGroup", "children", "MFNode", true, .empty⟩,  -- vrml97/nurbs.py:75
  ⟨"NurbsGroup", "tessellationScale", "SFFloat", true, .float (1, 0)⟩,  -- vrml97/nurbs.py:76
  ⟨"NurbsGroup", "bboxSize", "SFVec3f", false, .floats [(-1, 0), (-1, 0), (-1, 0)]⟩,  -- vrml97/nurbs.py:77
  ⟨"NurbsGroup", "bboxCenter", "SFVec3f", false, .floats [(0, 0), (0, 0), (0, 0)]⟩  -- vrml97/nurbs.py:78
]

/-- Every event declared by them: class, name, type, output. -/
def eventDecls : List (String × String × String × Bool) := [
  ("Anchor", "removeChildren", "MFNode", false),
  ("Anchor", "addChildren", "MFNode", false),
  ("AudioClip", "duration_changed", "SFTime", true),
  ("AudioClip", "isActive", "SFBool", true),
  ("Background", "set_bind", "SFBool", false),
  ("Background", "isBound", "SFBool", true),
  ("Billboard", "removeChildren", "MFNode", false),
  ("Billboard", "addChildren", "MFNode", false),
  ("Collision", "removeChildren", "MFNode", false),
  ("Collision", "collideTime", "SFTime", true),
  ("Collision", "addChildren", "MFNode", false),
  ("ColorInterpolator", "set_fraction", "SFFloat", false),
  ("ColorInterpolator", "value_changed", "SFColor", true),
  ("CoordinateInterpolator", "set_fraction", "SFFloat", false),
  ("CoordinateInterpolator", "value_changed", "MFVec3f", true),
  ("CylinderSensor", "rotation_changed", "SFRotation", true),
  ("CylinderSensor", "isActive", "SFBool", true),
  ("CylinderSensor", "trackPoint_changed", "SFVec3f", true),
  ("ElevationGrid", "set_height", "MFFloat", false),
  ("Extrusion", "set_crossSection", "MFVec2f", false),
  ("Extrusion", "set_orientation", "MFRotation", false),
  ("Extrusion", "set_scale", "MFVec2f", false),
  ("Extrusion", "set_spine", "MFVec3f", false),
  ("Fog", "set_bind", "SFBool", false),
  ("Fog", "isBound", "SFBool", true),
  ("Group", "removeChildren", "MFNode", false),
  ("Group", "addChildren", "MFNode", false),
  ("IndexedFaceSet", "set_coordIndex", "MFInt32", false),
  ("IndexedFaceSet", "set_texCoordIndex", "MFInt32", false),
  ("IndexedFaceSet", "set_colorIndex", "MFInt32", false),
  ("IndexedFaceSet", "set_normalIndex", "MFInt32", false),
  ("IndexedLineSet", "set_coordIndex", "MFInt32", false),
  ("IndexedLineSet", "set_colorIndex", "MFInt32", false),
  ("MovieTexture", "duration_changed", "SFFloat", true),
  ("MovieTexture", "isActive", "SFBool", true),
  ("NavigationInfo", "set_bind", "SFBool", false),
  ("NavigationInfo", "isBound", "SFBool", true),
  ("NormalInterpolator", "set_fraction", "SFFloat", false),
  ("NormalInterpolator", "value_changed", "MFVec3f", true),
  ("OrientationInterpolator", "set_fraction", "SFFloat", false),
  ("OrientationInterpolator", "value_changed", "SFRotation", true),
  ("PlaneSensor", "translation_changed", "SFVec3f", true),
  ("PlaneSensor", "isActive", "SFBool", true),
  ("PlaneSensor", "trackPoint_changed", "SFVec3f", true),
  ("PositionInterpolator", "set_fraction", "SFFloat", false),
  ("PositionInterpolator", "value_changed", "SFVec3f", true),
  ("ProximitySensor", "position_changed", "SFVec3f", true),
  ("ProximitySensor", "enterTime", "SFTime", true),
  ("ProximitySensor", "exitTime", "SFTime", true),
  ("ProximitySensor", "orientation_changed", "SFRotation", true),
  ("ProximitySensor", "isActive", "SFBool", true),
  ("ScalarInterpolator", "set_fraction", "SFFloat", false),
  ("ScalarInterpolator", "value_changed", "SFFloat", true),
  ("SphereSensor", "rotation_changed", "SFRotation", true),
  ("SphereSensor", "isActive", "SFBool", true),
  ("SphereSensor", "trackPoint_changed", "SFVec3f", true),
  ("TimeSensor", "fraction_changed", "SFFloat", true),
  ("TimeSensor", "cycleTime", "SFTime", true),
  ("TimeSensor", "isActive", "SFBool", true),
  ("TimeSensor", "time", "SFTime", true),
  ("TouchSensor", "isOver", "SFBool", true),
  ("TouchSensor", "hitTexCoord_changed", "SFVec2f", true),
  ("TouchSensor", "hitNormal_changed", "SFVec3f", true),
  ("TouchSensor", "hitPoint_changed", "SFVec3f", true),
  ("TouchSensor", "touchTime", "SFTime", true),
  ("TouchSensor", "isActive", "SFBool", true),
  ("Transform", "removeChildren", "MFNode", false),
  ("Transform", "addChildren", "MFNode", false),
  ("Viewpoint", "set_bind", "SFBool", false),
  ("Viewpoint", "bindTime", "SFTime", true),
  ("Viewpoint", "isBound", "SFBool", true),
  ("VisibilitySensor", "exitTime", "SFTime", true),
  ("VisibilitySensor", "enterTime", "SFTime", true),
  ("VisibilitySensor", "isActive", "SFBool", true)
]

/-- The node classes of basenodes.py, each a subclass of `node.Node` whose `PROTO` is its name: those that files can use without
declaring them (basenamespaces.py:13-29). -/
def baseNames : List String := [
  "Anchor",
  "Appearance",
  "AudioClip",
  "Background",
  "Billboard",
  "Box",
  "Collision",
  "Color",
  "ColorInterpolator",
  "Cone",
  "Coordinate",
  "CoordinateInterpolator",
  "Cylinder",
  "CylinderSensor",
  "DirectionalLight",
  "ElevationGrid",
  "Extrusion",
  "Fog",
  "FontStyle",
  "Group",
  "ImageTexture",
  "IndexedFaceSet",
  "IndexedLineSet",
  "Inline",
  "LOD",
  "Material",
  "MovieTexture",
  "NavigationInfo",
  "Normal",
  "NormalInterpolator",
  "OrientationInterpolator",
  "PixelTexture",
  "PlaneSensor",
  "PointLight",
  "PointSet",
  "PositionInterpolator",
  "ProximitySensor",
  "ScalarInterpolator",
  "Shape",
  "Sound",
  "Sphere",
  "SphereSensor",
  "SpotLight",
  "Switch",
  "Text",
  "TextureCoordinate",
  "TextureTransform",
  "TimeSensor",
  "TouchSensor",
  "Transform",
  "Viewpoint",
  "VisibilitySensor",
  "WorldInfo"
]

end Verif.Builtin
