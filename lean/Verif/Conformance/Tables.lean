import Verif.Model.Big5
/-!
# What the tests of the project need to run in the model

Written by /verif/tools/conform.py. The modules beside this one run the vectors of the project's unit tests through the
model. They are tests of the model, not proofs of any property.
-/

namespace Verif.Conformance

/-- `n` bytes, the first one the most significant of the number. -/
def bytes : Nat → Nat → Bytes
  | 0, _ => []
  | k + 1, n => UInt8.ofNat (n >>> (8 * k)) :: bytes k n

/-- The bytes of a Go string literal. -/
def utf8 (s : String) : Bytes := s.toList.flatMap fun c => encodeRune c.toNat

/-- Code point, Big5 code and number of the pair of bytes, for the characters that occur in the tests. Taken from another
implementation of the same character set, the codec big5hkscs of Python. -/
def characters : List (Nat × Nat × Nat) :=
  [(931, 41813, 5359), (8594, 41463, 5173), (9670, 41403, 5113), (9678, 41399, 5109), (12298, 41325, 5069),
   (12299, 41326, 5070), (12459, 51111, 11059), (12500, 51152, 11100), (12521, 51173, 11121), (12522, 51174, 11122),
   (12565, 41894, 5406), (12572, 41901, 5413), (19968, 42048, 5495), (19971, 42051, 5498), (19981, 42147, 5560),
   (20013, 42148, 5561), (20116, 42157, 5570), (20154, 42056, 5503), (20301, 42732, 5947), (20309, 42739, 5954),
   (20358, 43219, 6236), (20448, 43852, 6606), (20449, 43848, 6602), (20497, 44492, 7014), (20803, 42168, 5581),
   (20839, 42170, 5583), (20840, 42494, 5808), (20843, 42059, 5506), (20844, 42173, 5586), (20986, 42328, 5676),
   (21205, 45258, 7483), (21209, 45256, 7481), (21271, 42335, 5683), (21312, 45263, 7488), (21361, 42573, 5822),
   (21450, 42190, 5603), (21487, 42345, 5693), (21488, 42360, 5708), (21543, 42849, 5999), (21578, 42857, 6007),
   (21621, 43262, 6279), (21737, 44537, 7059), (21839, 45277, 7502), (21934, 46054, 7982), (22025, 47557, 8891),
   (22064, 48212, 9283), (22238, 42590, 5839), (22334, 42915, 6031), (22403, 43349, 6301), (22485, 53580, 12572),
   (22577, 46072, 8000), (22580, 46069, 7997), (22739, 49315, 9956), (22805, 42089, 5536), (22823, 42090, 5537),
   (22830, 42401, 5715), (22871, 44621, 7078), (22909, 42606, 5855), (23376, 42092, 5539), (23416, 48839, 9678),
   (23433, 42615, 5864), (23478, 44641, 7098), (23481, 44645, 7102), (23531, 48231, 9302), (23532, 48229, 9300),
   (23665, 42099, 5546), (24049, 42102, 5549), (24066, 42411, 5725), (24220, 43442, 6360), (24237, 44664, 7121),
   (24291, 48243, 9314), (24335, 42657, 5872), (24555, 42966, 6082), (24907, 47681, 8950), (24935, 48250, 9321),
   (25104, 42664, 5879), (25105, 42970, 6086), (25151, 43472, 6390), (25237, 42987, 6103), (25512, 45504, 7630),
   (25829, 64704, 19405), (25910, 42668, 5883), (25919, 44102, 6757), (25973, 48324, 9361), (25991, 42213, 5626),
   (26032, 46963, 8529), (26159, 44111, 6766), (26223, 46266, 8095), (26234, 46268, 8097), (26354, 42673, 5888),
   (26377, 42675, 5890), (26381, 43585, 6438), (26412, 42427, 5741), (26417, 42678, 5893), (26449, 43000, 6116),
   (26495, 43599, 6452), (26519, 43596, 6449), (26524, 43591, 6444), (26867, 55738, 13904), (27211, 48884, 9723),
   (27468, 47729, 8998), (27665, 42433, 5747), (27798, 43090, 6141), (27874, 43625, 6478), (27954, 44151, 6806),
   (28204, 46330, 8159), (28304, 47037, 8569), (28526, 48361, 9398), (28771, 50775, 10856), (28779, 42229, 5642),
   (28879, 44881, 7239), (29017, 47055, 8587), (29063, 58042, 15317), (29468, 45681, 7742), (29609, 43697, 6516),
   (29835, 48381, 9418), (29983, 42445, 5759), (30041, 44900, 7258), (30155, 54945, 13408), (30332, 46447, 8211),
   (30340, 43706, 6525), (30446, 42456, 5770), (30475, 44253, 6874), (31070, 44971, 7295), (31199, 44978, 7302),
   (31243, 46459, 8223), (31291, 48479, 9451), (31295, 48474, 9446), (31449, 44984, 7308), (31456, 46009, 7937),
   (31481, 42699, 5914), (31570, 46505, 8235), (31684, 48484, 9456), (31934, 47851, 9086), (31995, 43124, 6175),
   (32113, 45774, 7801), (32291, 49060, 9800), (32681, 47217, 8684), (32805, 39273, 3809), (32842, 45793, 7820),
   (33258, 42715, 5930), (34310, 50346, 10591), (34395, 46570, 8300), (34399, 47289, 8722), (35342, 45137, 7396),
   (35377, 45916, 7878), (35430, 47317, 8750), (35504, 48598, 9536), (35542, 48599, 9537), (35946, 48040, 9176),
   (36039, 47338, 8771), (36062, 48608, 9546), (36328, 47347, 8780), (36335, 47348, 8781), (36575, 45934, 7896),
   (36960, 48055, 9191), (37077, 53434, 12491), (37129, 46701, 8366), (37636, 49149, 9889), (37676, 37026, 2419),
   (38263, 43768, 6587), (38290, 46754, 8385), (38570, 49225, 9900), (38577, 49652, 10194), (38620, 49912, 10355),
   (38626, 49911, 10354), (38651, 47473, 8841), (38728, 50758, 10839), (38750, 43844, 6598), (38988, 49988, 10366),
   (39636, 50665, 10811), (39640, 45226, 7451), (40244, 64161, 19060), (40670, 49737, 10214), (65281, 41289, 5033),
   (65292, 41281, 5025), (65311, 41288, 5032), (65332, 41698, 5309), (65349, 41709, 5320), (65363, 41723, 5334),
   (65364, 41724, 5335), (137177, 38761, 3495), (155618, 39844, 4148)]

/-- The two tables, as far as they are needed. -/
def tables : Big5Tables :=
  ⟨fun i => ((characters.find? (fun c => c.2.2 == i)).map (·.1)).getD 0,
   fun u => ((characters.find? (fun c => c.1 == u)).map (·.2.1)).getD 0⟩

/-- The codec of /repo/big5.go on these characters. -/
def codec : Codec := big5Codec tables

end Verif.Conformance
