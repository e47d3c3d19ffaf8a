/-
GENERATED by tools/gen_css.py from /repo/vrml/csscolors.py:22-163 (cssColors).
Components are in ten-thousandths (all literals of the table have at most four decimals).
-/
namespace Verif.Coerce

/-- csscolors.py:22-163. -/
def cssTable : List (String × Nat × Nat × Nat) := [
  ("black", 0, 0, 0),
  ("dimgray", 4118, 4118, 4118),
  ("gray", 5020, 5020, 5020),
  ("darkgray", 6627, 6627, 6627),
  ("silver", 7529, 7529, 7529),
  ("lightgrey", 8275, 8275, 8275),
  ("gainsboro", 8627, 8627, 8627),
  ("whitesmoke", 9608, 9608, 9608),
  ("white", 10000, 10000, 10000),
  ("snow", 10000, 9804, 9804),
  ("rosybrown", 7373, 5608, 5608),
  ("lightcoral", 9412, 5020, 5020),
  ("indianred", 8039, 3608, 3608),
  ("brown", 6471, 1647, 1647),
  ("firebrick", 6980, 1333, 1333),
  ("maroon", 5020, 0, 0),
  ("darkred", 5451, 0, 0),
  ("red", 10000, 0, 0),
  ("mistyrose", 10000, 8941, 8824),
  ("salmon", 9804, 5020, 4471),
  ("tomato", 10000, 3882, 2784),
  ("darksalmon", 9137, 5882, 4784),
  ("coral", 10000, 4980, 3137),
  ("orangered", 10000, 2706, 0),
  ("lightsalmon", 10000, 6275, 4784),
  ("sienna", 6275, 3216, 1765),
  ("seashell", 10000, 9608, 9333),
  ("chocolate", 8235, 4118, 1176),
  ("saddlebrown", 5451, 2706, 745),
  ("sandybrown", 9569, 6431, 3765),
  ("peachpuff", 10000, 8549, 7255),
  ("peru", 8039, 5216, 2471),
  ("linen", 9804, 9412, 9020),
  ("bisque", 10000, 8941, 7686),
  ("burlywood", 8706, 7216, 5294),
  ("darkorange", 10000, 5490, 0),
  ("antiquewhite", 9804, 9216, 8431),
  ("tan", 8235, 7059, 5490),
  ("blanchedalmond", 10000, 9216, 8039),
  ("navajowhite", 10000, 8706, 6784),
  ("papayawhip", 10000, 9373, 8353),
  ("moccasin", 10000, 8941, 7098),
  ("oldlace", 9922, 9608, 9020),
  ("wheat", 9608, 8706, 7020),
  ("orange", 10000, 6471, 0),
  ("floralwhite", 10000, 9804, 9412),
  ("goldenrod", 8549, 6471, 1255),
  ("cornsilk", 10000, 9725, 8627),
  ("gold", 10000, 8431, 0),
  ("lemonchiffon", 10000, 9804, 8039),
  ("palegoldenrod", 9333, 9098, 6667),
  ("khaki", 9412, 9020, 5490),
  ("darkkhaki", 7412, 7176, 4196),
  ("ivory", 10000, 10000, 9412),
  ("beige", 9608, 9608, 8627),
  ("lightyellow", 10000, 10000, 8784),
  ("lightgoldenrodyellow", 9804, 9804, 8235),
  ("darkgoldenrod", 7216, 7137, 431),
  ("olive", 5020, 5020, 0),
  ("yellow", 10000, 10000, 0),
  ("yellowgreen", 6627, 8039, 1961),
  ("olivedrab", 4196, 5569, 1373),
  ("darkolivegreen", 3333, 4196, 1843),
  ("greenyellow", 6784, 10000, 1843),
  ("chartreuse", 4980, 10000, 0),
  ("lawngreen", 4863, 9882, 0),
  ("honeydew", 9412, 10000, 9412),
  ("darkseagreen", 5608, 7373, 5608),
  ("lightgreen", 5647, 9333, 5647),
  ("palegreen", 5961, 9843, 5961),
  ("forestgreen", 1333, 5451, 1333),
  ("limegreen", 1961, 8039, 1961),
  ("darkgreen", 0, 3922, 0),
  ("green", 0, 5020, 0),
  ("lime", 0, 10000, 0),
  ("mediumseagreen", 2353, 7020, 4431),
  ("seagreen", 1804, 5451, 3412),
  ("mintcream", 9608, 10000, 9804),
  ("springgreen", 0, 10000, 4980),
  ("mediumspringgreen", 0, 9804, 6039),
  ("mediumaquamarine", 4000, 8039, 6667),
  ("aquamarine", 4980, 10000, 8314),
  ("turquoise", 2510, 8784, 8157),
  ("mediumturquoise", 2824, 8196, 8000),
  ("lightseagreen", 1255, 6980, 6667),
  ("azure", 9412, 10000, 10000),
  ("lightcyan", 8784, 10000, 10000),
  ("paleturquoise", 6863, 9333, 9333),
  ("darkslategray", 1843, 3098, 3098),
  ("teal", 0, 5020, 5020),
  ("darkcyan", 0, 5451, 5451),
  ("aqua", 0, 10000, 10000),
  ("cyan", 0, 10000, 10000),
  ("cadetblue", 3725, 6196, 6275),
  ("darkturquoise", 0, 8078, 8196),
  ("powderblue", 6902, 8784, 9020),
  ("lightblue", 6784, 8471, 9020),
  ("deepskyblue", 0, 7490, 10000),
  ("skyblue", 5294, 8078, 9294),
  ("lightskyblue", 5294, 8078, 9804),
  ("steelblue", 2745, 5098, 7059),
  ("aliceblue", 9412, 9725, 10000),
  ("slategray", 4392, 5020, 5647),
  ("lightslategray", 4667, 5333, 6000),
  ("dodgerblue", 1176, 5647, 10000),
  ("lightsteelblue", 6902, 7686, 8706),
  ("cornflowerblue", 3922, 5843, 9294),
  ("royalblue", 157, 863, 5647),
  ("ghostwhite", 9725, 9725, 10000),
  ("lavender", 9020, 9020, 9804),
  ("midnightblue", 980, 980, 4392),
  ("navy", 0, 0, 5020),
  ("darkblue", 0, 0, 5451),
  ("mediumblue", 0, 0, 8039),
  ("blue", 0, 0, 10000),
  ("darkslateblue", 2824, 2392, 5451),
  ("slateblue", 4157, 3529, 8039),
  ("mediumslateblue", 4824, 4078, 9333),
  ("mediumpurple", 5765, 4392, 8588),
  ("blueviolet", 5412, 1686, 8863),
  ("indigo", 2941, 0, 5098),
  ("darkorchid", 6000, 1961, 8000),
  ("darkviolet", 5804, 0, 8275),
  ("mediumorchid", 7294, 3333, 8275),
  ("thistle", 8471, 7490, 8471),
  ("plum", 8667, 6275, 8667),
  ("violet", 9333, 5098, 9333),
  ("purple", 5020, 0, 5020),
  ("darkmagenta", 5451, 0, 5451),
  ("fuchsia", 10000, 0, 10000),
  ("magenta", 10000, 0, 10000),
  ("orchid", 8549, 4392, 8392),
  ("mediumvioletred", 7804, 824, 5216),
  ("deeppink", 10000, 784, 5765),
  ("hotpink", 10000, 4118, 7059),
  ("lavenderblush", 10000, 9412, 9608),
  ("palevioletred", 8588, 4392, 5765),
  ("pink", 10000, 7529, 8039),
  ("crimson", 8627, 784, 2353),
  ("lightpink", 10000, 7137, 7569)
]

end Verif.Coerce
