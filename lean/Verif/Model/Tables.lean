/-!
# The built-in tables

Transcribed by script from the `match` expressions of the source.  A table is the
list of its arms in order; looking a key up takes the first arm that matches.
-/
namespace PS.Tables

/-- The arms of `get_standard_string`, src/compact1/index/strings.rs:25-420. -/
def standardStrings : List (Nat × String) := [
  (0, ".notdef"),
  (1, "space"),
  (2, "exclam"),
  (3, "quotedbl"),
  (4, "numbersign"),
  (5, "dollar"),
  (6, "percent"),
  (7, "ampersand"),
  (8, "quoteright"),
  (9, "parenleft"),
  (10, "parenright"),
  (11, "asterisk"),
  (12, "plus"),
  (13, "comma"),
  (14, "hyphen"),
  (15, "period"),
  (16, "slash"),
  (17, "zero"),
  (18, "one"),
  (19, "two"),
  (20, "three"),
  (21, "four"),
  (22, "five"),
  (23, "six"),
  (24, "seven"),
  (25, "eight"),
  (26, "nine"),
  (27, "colon"),
  (28, "semicolon"),
  (29, "less"),
  (30, "equal"),
  (31, "greater"),
  (32, "question"),
  (33, "at"),
  (34, "A"),
  (35, "B"),
  (36, "C"),
  (37, "D"),
  (38, "E"),
  (39, "F"),
  (40, "G"),
  (41, "H"),
  (42, "I"),
  (43, "J"),
  (44, "K"),
  (45, "L"),
  (46, "M"),
  (47, "N"),
  (48, "O"),
  (49, "P"),
  (50, "Q"),
  (51, "R"),
  (52, "S"),
  (53, "T"),
  (54, "U"),
  (55, "V"),
  (56, "W"),
  (57, "X"),
  (58, "Y"),
  (59, "Z"),
  (60, "bracketleft"),
  (61, "backslash"),
  (62, "bracketright"),
  (63, "asciicircum"),
  (64, "underscore"),
  (65, "quoteleft"),
  (66, "a"),
  (67, "b"),
  (68, "c"),
  (69, "d"),
  (70, "e"),
  (71, "f"),
  (72, "g"),
  (73, "h"),
  (74, "i"),
  (75, "j"),
  (76, "k"),
  (77, "l"),
  (78, "m"),
  (79, "n"),
  (80, "o"),
  (81, "p"),
  (82, "q"),
  (83, "r"),
  (84, "s"),
  (85, "t"),
  (86, "u"),
  (87, "v"),
  (88, "w"),
  (89, "x"),
  (90, "y"),
  (91, "z"),
  (92, "braceleft"),
  (93, "bar"),
  (94, "braceright"),
  (95, "asciitilde"),
  (96, "exclamdown"),
  (97, "cent"),
  (98, "sterling"),
  (99, "fraction"),
  (100, "yen"),
  (101, "florin"),
  (102, "section"),
  (103, "currency"),
  (104, "quotesingle"),
  (105, "quotedblleft"),
  (106, "guillemotleft"),
  (107, "guilsinglleft"),
  (108, "guilsinglright"),
  (109, "fi"),
  (110, "fl"),
  (111, "endash"),
  (112, "dagger"),
  (113, "daggerdbl"),
  (114, "periodcentered"),
  (115, "paragraph"),
  (116, "bullet"),
  (117, "quotesinglbase"),
  (118, "quotedblbase"),
  (119, "quotedblright"),
  (120, "guillemotright"),
  (121, "ellipsis"),
  (122, "perthousand"),
  (123, "questiondown"),
  (124, "grave"),
  (125, "acute"),
  (126, "circumflex"),
  (127, "tilde"),
  (128, "macron"),
  (129, "breve"),
  (130, "dotaccent"),
  (131, "dieresis"),
  (132, "ring"),
  (133, "cedilla"),
  (134, "hungarumlaut"),
  (135, "ogonek"),
  (136, "caron"),
  (137, "emdash"),
  (138, "AE"),
  (139, "ordfeminine"),
  (140, "Lslash"),
  (141, "Oslash"),
  (142, "OE"),
  (143, "ordmasculine"),
  (144, "ae"),
  (145, "dotlessi"),
  (146, "lslash"),
  (147, "oslash"),
  (148, "oe"),
  (149, "germandbls"),
  (150, "onesuperior"),
  (151, "logicalnot"),
  (152, "mu"),
  (153, "trademark"),
  (154, "Eth"),
  (155, "onehalf"),
  (156, "plusminus"),
  (157, "Thorn"),
  (158, "onequarter"),
  (159, "divide"),
  (160, "brokenbar"),
  (161, "degree"),
  (162, "thorn"),
  (163, "threequarters"),
  (164, "twosuperior"),
  (165, "registered"),
  (166, "minus"),
  (167, "eth"),
  (168, "multiply"),
  (169, "threesuperior"),
  (170, "copyright"),
  (171, "Aacute"),
  (172, "Acircumflex"),
  (173, "Adieresis"),
  (174, "Agrave"),
  (175, "Aring"),
  (176, "Atilde"),
  (177, "Ccedilla"),
  (178, "Eacute"),
  (179, "Ecircumflex"),
  (180, "Edieresis"),
  (181, "Egrave"),
  (182, "Iacute"),
  (183, "Icircumflex"),
  (184, "Idieresis"),
  (185, "Igrave"),
  (186, "Ntilde"),
  (187, "Oacute"),
  (188, "Ocircumflex"),
  (189, "Odieresis"),
  (190, "Ograve"),
  (191, "Otilde"),
  (192, "Scaron"),
  (193, "Uacute"),
  (194, "Ucircumflex"),
  (195, "Udieresis"),
  (196, "Ugrave"),
  (197, "Yacute"),
  (198, "Ydieresis"),
  (199, "Zcaron"),
  (200, "aacute"),
  (201, "acircumflex"),
  (202, "adieresis"),
  (203, "agrave"),
  (204, "aring"),
  (205, "atilde"),
  (206, "ccedilla"),
  (207, "eacute"),
  (208, "ecircumflex"),
  (209, "edieresis"),
  (210, "egrave"),
  (211, "iacute"),
  (212, "icircumflex"),
  (213, "idieresis"),
  (214, "igrave"),
  (215, "ntilde"),
  (216, "oacute"),
  (217, "ocircumflex"),
  (218, "odieresis"),
  (219, "ograve"),
  (220, "otilde"),
  (221, "scaron"),
  (222, "uacute"),
  (223, "ucircumflex"),
  (224, "udieresis"),
  (225, "ugrave"),
  (226, "yacute"),
  (227, "ydieresis"),
  (228, "zcaron"),
  (229, "exclamsmall"),
  (230, "Hungarumlautsmall"),
  (231, "dollaroldstyle"),
  (232, "dollarsuperior"),
  (233, "ampersandsmall"),
  (234, "Acutesmall"),
  (235, "parenleftsuperior"),
  (236, "parenrightsuperior"),
  (237, "twodotenleader"),
  (238, "onedotenleader"),
  (239, "zerooldstyle"),
  (240, "oneoldstyle"),
  (241, "twooldstyle"),
  (242, "threeoldstyle"),
  (243, "fouroldstyle"),
  (244, "fiveoldstyle"),
  (245, "sixoldstyle"),
  (246, "sevenoldstyle"),
  (247, "eightoldstyle"),
  (248, "nineoldstyle"),
  (249, "commasuperior"),
  (250, "threequartersemdash"),
  (251, "periodsuperior"),
  (252, "questionsmall"),
  (253, "asuperior"),
  (254, "bsuperior"),
  (255, "centsuperior"),
  (256, "dsuperior"),
  (257, "esuperior"),
  (258, "isuperior"),
  (259, "lsuperior"),
  (260, "msuperior"),
  (261, "nsuperior"),
  (262, "osuperior"),
  (263, "rsuperior"),
  (264, "ssuperior"),
  (265, "tsuperior"),
  (266, "ff"),
  (267, "ffi"),
  (268, "ffl"),
  (269, "parenleftinferior"),
  (270, "parenrightinferior"),
  (271, "Circumflexsmall"),
  (272, "hyphensuperior"),
  (273, "Gravesmall"),
  (274, "Asmall"),
  (275, "Bsmall"),
  (276, "Csmall"),
  (277, "Dsmall"),
  (278, "Esmall"),
  (279, "Fsmall"),
  (280, "Gsmall"),
  (281, "Hsmall"),
  (282, "Ismall"),
  (283, "Jsmall"),
  (284, "Ksmall"),
  (285, "Lsmall"),
  (286, "Msmall"),
  (287, "Nsmall"),
  (288, "Osmall"),
  (289, "Psmall"),
  (290, "Qsmall"),
  (291, "Rsmall"),
  (292, "Ssmall"),
  (293, "Tsmall"),
  (294, "Usmall"),
  (295, "Vsmall"),
  (296, "Wsmall"),
  (297, "Xsmall"),
  (298, "Ysmall"),
  (299, "Zsmall"),
  (300, "colonmonetary"),
  (301, "onefitted"),
  (302, "rupiah"),
  (303, "Tildesmall"),
  (304, "exclamdownsmall"),
  (305, "centoldstyle"),
  (306, "Lslashsmall"),
  (307, "Scaronsmall"),
  (308, "Zcaronsmall"),
  (309, "Dieresissmall"),
  (310, "Brevesmall"),
  (311, "Caronsmall"),
  (312, "Dotaccentsmall"),
  (313, "Macronsmall"),
  (314, "figuredash"),
  (315, "hypheninferior"),
  (316, "Ogoneksmall"),
  (317, "Ringsmall"),
  (318, "Cedillasmall"),
  (319, "questiondownsmall"),
  (320, "oneeighth"),
  (321, "threeeighths"),
  (322, "fiveeighths"),
  (323, "seveneighths"),
  (324, "onethird"),
  (325, "twothirds"),
  (326, "zerosuperior"),
  (327, "foursuperior"),
  (328, "fivesuperior"),
  (329, "sixsuperior"),
  (330, "sevensuperior"),
  (331, "eightsuperior"),
  (332, "ninesuperior"),
  (333, "zeroinferior"),
  (334, "oneinferior"),
  (335, "twoinferior"),
  (336, "threeinferior"),
  (337, "fourinferior"),
  (338, "fiveinferior"),
  (339, "sixinferior"),
  (340, "seveninferior"),
  (341, "eightinferior"),
  (342, "nineinferior"),
  (343, "centinferior"),
  (344, "dollarinferior"),
  (345, "periodinferior"),
  (346, "commainferior"),
  (347, "Agravesmall"),
  (348, "Aacutesmall"),
  (349, "Acircumflexsmall"),
  (350, "Atildesmall"),
  (351, "Adieresissmall"),
  (352, "Aringsmall"),
  (353, "AEsmall"),
  (354, "Ccedillasmall"),
  (355, "Egravesmall"),
  (356, "Eacutesmall"),
  (357, "Ecircumflexsmall"),
  (358, "Edieresissmall"),
  (359, "Igravesmall"),
  (360, "Iacutesmall"),
  (361, "Icircumflexsmall"),
  (362, "Idieresissmall"),
  (363, "Ethsmall"),
  (364, "Ntildesmall"),
  (365, "Ogravesmall"),
  (366, "Oacutesmall"),
  (367, "Ocircumflexsmall"),
  (368, "Otildesmall"),
  (369, "Odieresissmall"),
  (370, "OEsmall"),
  (371, "Oslashsmall"),
  (372, "Ugravesmall"),
  (373, "Uacutesmall"),
  (374, "Ucircumflexsmall"),
  (375, "Udieresissmall"),
  (376, "Yacutesmall"),
  (377, "Thornsmall"),
  (378, "Ydieresissmall"),
  (379, "001.000"),
  (380, "001.001"),
  (381, "001.002"),
  (382, "001.003"),
  (383, "Black"),
  (384, "Bold"),
  (385, "Book"),
  (386, "Light"),
  (387, "Medium"),
  (388, "Regular"),
  (389, "Roman"),
  (390, "Semibold")]

/-- The arms of `get_iso_adobe`, src/compact1/character_set.rs:167-399. -/
def isoAdobe : List (Nat × String) := [
  (1, "space"),
  (2, "exclam"),
  (3, "quotedbl"),
  (4, "numbersign"),
  (5, "dollar"),
  (6, "percent"),
  (7, "ampersand"),
  (8, "quoteright"),
  (9, "parenleft"),
  (10, "parenright"),
  (11, "asterisk"),
  (12, "plus"),
  (13, "comma"),
  (14, "hyphen"),
  (15, "period"),
  (16, "slash"),
  (17, "zero"),
  (18, "one"),
  (19, "two"),
  (20, "three"),
  (21, "four"),
  (22, "five"),
  (23, "six"),
  (24, "seven"),
  (25, "eight"),
  (26, "nine"),
  (27, "colon"),
  (28, "semicolon"),
  (29, "less"),
  (30, "equal"),
  (31, "greater"),
  (32, "question"),
  (33, "at"),
  (34, "A"),
  (35, "B"),
  (36, "C"),
  (37, "D"),
  (38, "E"),
  (39, "F"),
  (40, "G"),
  (41, "H"),
  (42, "I"),
  (43, "J"),
  (44, "K"),
  (45, "L"),
  (46, "M"),
  (47, "N"),
  (48, "O"),
  (49, "P"),
  (50, "Q"),
  (51, "R"),
  (52, "S"),
  (53, "T"),
  (54, "U"),
  (55, "V"),
  (56, "W"),
  (57, "X"),
  (58, "Y"),
  (59, "Z"),
  (60, "bracketleft"),
  (61, "backslash"),
  (62, "bracketright"),
  (63, "asciicircum"),
  (64, "underscore"),
  (65, "quoteleft"),
  (66, "a"),
  (67, "b"),
  (68, "c"),
  (69, "d"),
  (70, "e"),
  (71, "f"),
  (72, "g"),
  (73, "h"),
  (74, "i"),
  (75, "j"),
  (76, "k"),
  (77, "l"),
  (78, "m"),
  (79, "n"),
  (80, "o"),
  (81, "p"),
  (82, "q"),
  (83, "r"),
  (84, "s"),
  (85, "t"),
  (86, "u"),
  (87, "v"),
  (88, "w"),
  (89, "x"),
  (90, "y"),
  (91, "z"),
  (92, "braceleft"),
  (93, "bar"),
  (94, "braceright"),
  (95, "asciitilde"),
  (96, "exclamdown"),
  (97, "cent"),
  (98, "sterling"),
  (99, "fraction"),
  (100, "yen"),
  (101, "florin"),
  (102, "section"),
  (103, "currency"),
  (104, "quotesingle"),
  (105, "quotedblleft"),
  (106, "guillemotleft"),
  (107, "guilsinglleft"),
  (108, "guilsinglright"),
  (109, "fi"),
  (110, "fl"),
  (111, "endash"),
  (112, "dagger"),
  (113, "daggerdbl"),
  (114, "periodcentered"),
  (115, "paragraph"),
  (116, "bullet"),
  (117, "quotesinglbase"),
  (118, "quotedblbase"),
  (119, "quotedblright"),
  (120, "guillemotright"),
  (121, "ellipsis"),
  (122, "perthousand"),
  (123, "questiondown"),
  (124, "grave"),
  (125, "acute"),
  (126, "circumflex"),
  (127, "tilde"),
  (128, "macron"),
  (129, "breve"),
  (130, "dotaccent"),
  (131, "dieresis"),
  (132, "ring"),
  (133, "cedilla"),
  (134, "hungarumlaut"),
  (135, "ogonek"),
  (136, "caron"),
  (137, "emdash"),
  (138, "AE"),
  (139, "ordfeminine"),
  (140, "Lslash"),
  (141, "Oslash"),
  (142, "OE"),
  (143, "ordmasculine"),
  (144, "ae"),
  (145, "dotlessi"),
  (146, "lslash"),
  (147, "oslash"),
  (148, "oe"),
  (149, "germandbls"),
  (150, "onesuperior"),
  (151, "logicalnot"),
  (152, "mu"),
  (153, "trademark"),
  (154, "Eth"),
  (155, "onehalf"),
  (156, "plusminus"),
  (157, "Thorn"),
  (158, "onequarter"),
  (159, "divide"),
  (160, "brokenbar"),
  (161, "degree"),
  (162, "thorn"),
  (163, "threequarters"),
  (164, "twosuperior"),
  (165, "registered"),
  (166, "minus"),
  (167, "eth"),
  (168, "multiply"),
  (169, "threesuperior"),
  (170, "copyright"),
  (171, "Aacute"),
  (172, "Acircumflex"),
  (173, "Adieresis"),
  (174, "Agrave"),
  (175, "Aring"),
  (176, "Atilde"),
  (177, "Ccedilla"),
  (178, "Eacute"),
  (179, "Ecircumflex"),
  (180, "Edieresis"),
  (181, "Egrave"),
  (182, "Iacute"),
  (183, "Icircumflex"),
  (184, "Idieresis"),
  (185, "Igrave"),
  (186, "Ntilde"),
  (187, "Oacute"),
  (188, "Ocircumflex"),
  (189, "Odieresis"),
  (190, "Ograve"),
  (191, "Otilde"),
  (192, "Scaron"),
  (193, "Uacute"),
  (194, "Ucircumflex"),
  (195, "Udieresis"),
  (196, "Ugrave"),
  (197, "Yacute"),
  (198, "Ydieresis"),
  (199, "Zcaron"),
  (200, "aacute"),
  (201, "acircumflex"),
  (202, "adieresis"),
  (203, "agrave"),
  (204, "aring"),
  (205, "atilde"),
  (206, "ccedilla"),
  (207, "eacute"),
  (208, "ecircumflex"),
  (209, "edieresis"),
  (210, "egrave"),
  (211, "iacute"),
  (212, "icircumflex"),
  (213, "idieresis"),
  (214, "igrave"),
  (215, "ntilde"),
  (216, "oacute"),
  (217, "ocircumflex"),
  (218, "odieresis"),
  (219, "ograve"),
  (220, "otilde"),
  (221, "scaron"),
  (222, "uacute"),
  (223, "ucircumflex"),
  (224, "udieresis"),
  (225, "ugrave"),
  (226, "yacute"),
  (227, "ydieresis"),
  (228, "zcaron")]

/-- The arms of `get_expert`, src/compact1/character_set.rs:401-570. -/
def expertSet : List (Nat × String) := [
  (1, "space"),
  (229, "exclamsmall"),
  (230, "Hungarumlautsmall"),
  (231, "dollaroldstyle"),
  (232, "dollarsuperior"),
  (233, "ampersandsmall"),
  (234, "Acutesmall"),
  (235, "parenleftsuperior"),
  (236, "parenrightsuperior"),
  (237, "twodotenleader"),
  (238, "onedotenleader"),
  (13, "comma"),
  (14, "hyphen"),
  (15, "period"),
  (99, "fraction"),
  (239, "zerooldstyle"),
  (240, "oneoldstyle"),
  (241, "twooldstyle"),
  (242, "threeoldstyle"),
  (243, "fouroldstyle"),
  (244, "fiveoldstyle"),
  (245, "sixoldstyle"),
  (246, "sevenoldstyle"),
  (247, "eightoldstyle"),
  (248, "nineoldstyle"),
  (27, "colon"),
  (28, "semicolon"),
  (249, "commasuperior"),
  (250, "threequartersemdash"),
  (251, "periodsuperior"),
  (252, "questionsmall"),
  (253, "asuperior"),
  (254, "bsuperior"),
  (255, "centsuperior"),
  (256, "dsuperior"),
  (257, "esuperior"),
  (258, "isuperior"),
  (259, "lsuperior"),
  (260, "msuperior"),
  (261, "nsuperior"),
  (262, "osuperior"),
  (263, "rsuperior"),
  (264, "ssuperior"),
  (265, "tsuperior"),
  (266, "ff"),
  (109, "fi"),
  (110, "fl"),
  (267, "ffi"),
  (268, "ffl"),
  (269, "parenleftinferior"),
  (270, "parenrightinferior"),
  (271, "Circumflexsmall"),
  (272, "hyphensuperior"),
  (273, "Gravesmall"),
  (274, "Asmall"),
  (275, "Bsmall"),
  (276, "Csmall"),
  (277, "Dsmall"),
  (278, "Esmall"),
  (279, "Fsmall"),
  (280, "Gsmall"),
  (281, "Hsmall"),
  (282, "Ismall"),
  (283, "Jsmall"),
  (284, "Ksmall"),
  (285, "Lsmall"),
  (286, "Msmall"),
  (287, "Nsmall"),
  (288, "Osmall"),
  (289, "Psmall"),
  (290, "Qsmall"),
  (291, "Rsmall"),
  (292, "Ssmall"),
  (293, "Tsmall"),
  (294, "Usmall"),
  (295, "Vsmall"),
  (296, "Wsmall"),
  (297, "Xsmall"),
  (298, "Ysmall"),
  (299, "Zsmall"),
  (300, "colonmonetary"),
  (301, "onefitted"),
  (302, "rupiah"),
  (303, "Tildesmall"),
  (304, "exclamdownsmall"),
  (305, "centoldstyle"),
  (306, "Lslashsmall"),
  (307, "Scaronsmall"),
  (308, "Zcaronsmall"),
  (309, "Dieresissmall"),
  (310, "Brevesmall"),
  (311, "Caronsmall"),
  (312, "Dotaccentsmall"),
  (313, "Macronsmall"),
  (314, "figuredash"),
  (315, "hypheninferior"),
  (316, "Ogoneksmall"),
  (317, "Ringsmall"),
  (318, "Cedillasmall"),
  (158, "onequarter"),
  (155, "onehalf"),
  (163, "threequarters"),
  (319, "questiondownsmall"),
  (320, "oneeighth"),
  (321, "threeeighths"),
  (322, "fiveeighths"),
  (323, "seveneighths"),
  (324, "onethird"),
  (325, "twothirds"),
  (326, "zerosuperior"),
  (150, "onesuperior"),
  (164, "twosuperior"),
  (169, "threesuperior"),
  (327, "foursuperior"),
  (328, "fivesuperior"),
  (329, "sixsuperior"),
  (330, "sevensuperior"),
  (331, "eightsuperior"),
  (332, "ninesuperior"),
  (333, "zeroinferior"),
  (334, "oneinferior"),
  (335, "twoinferior"),
  (336, "threeinferior"),
  (337, "fourinferior"),
  (338, "fiveinferior"),
  (339, "sixinferior"),
  (340, "seveninferior"),
  (341, "eightinferior"),
  (342, "nineinferior"),
  (343, "centinferior"),
  (344, "dollarinferior"),
  (345, "periodinferior"),
  (346, "commainferior"),
  (347, "Agravesmall"),
  (348, "Aacutesmall"),
  (349, "Acircumflexsmall"),
  (350, "Atildesmall"),
  (351, "Adieresissmall"),
  (352, "Aringsmall"),
  (353, "AEsmall"),
  (354, "Ccedillasmall"),
  (355, "Egravesmall"),
  (356, "Eacutesmall"),
  (357, "Ecircumflexsmall"),
  (358, "Edieresissmall"),
  (359, "Igravesmall"),
  (360, "Iacutesmall"),
  (361, "Icircumflexsmall"),
  (362, "Idieresissmall"),
  (363, "Ethsmall"),
  (364, "Ntildesmall"),
  (365, "Ogravesmall"),
  (366, "Oacutesmall"),
  (367, "Ocircumflexsmall"),
  (368, "Otildesmall"),
  (369, "Odieresissmall"),
  (370, "OEsmall"),
  (371, "Oslashsmall"),
  (372, "Ugravesmall"),
  (373, "Uacutesmall"),
  (374, "Ucircumflexsmall"),
  (375, "Udieresissmall"),
  (376, "Yacutesmall"),
  (377, "Thornsmall"),
  (378, "Ydieresissmall")]

/-- The arms of `get_expert_subset`, src/compact1/character_set.rs:572-662. -/
def expertSubset : List (Nat × String) := [
  (1, "space"),
  (231, "dollaroldstyle"),
  (232, "dollarsuperior"),
  (235, "parenleftsuperior"),
  (236, "parenrightsuperior"),
  (237, "twodotenleader"),
  (238, "onedotenleader"),
  (13, "comma"),
  (14, "hyphen"),
  (15, "period"),
  (99, "fraction"),
  (239, "zerooldstyle"),
  (240, "oneoldstyle"),
  (241, "twooldstyle"),
  (242, "threeoldstyle"),
  (243, "fouroldstyle"),
  (244, "fiveoldstyle"),
  (245, "sixoldstyle"),
  (246, "sevenoldstyle"),
  (247, "eightoldstyle"),
  (248, "nineoldstyle"),
  (27, "colon"),
  (28, "semicolon"),
  (249, "commasuperior"),
  (250, "threequartersemdash"),
  (251, "periodsuperior"),
  (253, "asuperior"),
  (254, "bsuperior"),
  (255, "centsuperior"),
  (256, "dsuperior"),
  (257, "esuperior"),
  (258, "isuperior"),
  (259, "lsuperior"),
  (260, "msuperior"),
  (261, "nsuperior"),
  (262, "osuperior"),
  (263, "rsuperior"),
  (264, "ssuperior"),
  (265, "tsuperior"),
  (266, "ff"),
  (109, "fi"),
  (110, "fl"),
  (267, "ffi"),
  (268, "ffl"),
  (269, "parenleftinferior"),
  (270, "parenrightinferior"),
  (272, "hyphensuperior"),
  (300, "colonmonetary"),
  (301, "onefitted"),
  (302, "rupiah"),
  (305, "centoldstyle"),
  (314, "figuredash"),
  (315, "hypheninferior"),
  (158, "onequarter"),
  (155, "onehalf"),
  (163, "threequarters"),
  (320, "oneeighth"),
  (321, "threeeighths"),
  (322, "fiveeighths"),
  (323, "seveneighths"),
  (324, "onethird"),
  (325, "twothirds"),
  (326, "zerosuperior"),
  (150, "onesuperior"),
  (164, "twosuperior"),
  (169, "threesuperior"),
  (327, "foursuperior"),
  (328, "fivesuperior"),
  (329, "sixsuperior"),
  (330, "sevensuperior"),
  (331, "eightsuperior"),
  (332, "ninesuperior"),
  (333, "zeroinferior"),
  (334, "oneinferior"),
  (335, "twoinferior"),
  (336, "threeinferior"),
  (337, "fourinferior"),
  (338, "fiveinferior"),
  (339, "sixinferior"),
  (340, "seveninferior"),
  (341, "eightinferior"),
  (342, "nineinferior"),
  (343, "centinferior"),
  (344, "dollarinferior"),
  (345, "periodinferior"),
  (346, "commainferior")]

/-- The arms of `get_standard`, src/compact1/encoding.rs:124-383: code, string identifier, and the name the
source writes next to it (which the macro `get!`, lines 115-122, discards). -/
def standardEncoding : List (Nat × Nat × String) := [
  (0, 0, ".notdef"),
  (1, 0, ".notdef"),
  (2, 0, ".notdef"),
  (3, 0, ".notdef"),
  (4, 0, ".notdef"),
  (5, 0, ".notdef"),
  (6, 0, ".notdef"),
  (7, 0, ".notdef"),
  (8, 0, ".notdef"),
  (9, 0, ".notdef"),
  (10, 0, ".notdef"),
  (11, 0, ".notdef"),
  (12, 0, ".notdef"),
  (13, 0, ".notdef"),
  (14, 0, ".notdef"),
  (15, 0, ".notdef"),
  (16, 0, ".notdef"),
  (17, 0, ".notdef"),
  (18, 0, ".notdef"),
  (19, 0, ".notdef"),
  (20, 0, ".notdef"),
  (21, 0, ".notdef"),
  (22, 0, ".notdef"),
  (23, 0, ".notdef"),
  (24, 0, ".notdef"),
  (25, 0, ".notdef"),
  (26, 0, ".notdef"),
  (27, 0, ".notdef"),
  (28, 0, ".notdef"),
  (29, 0, ".notdef"),
  (30, 0, ".notdef"),
  (31, 0, ".notdef"),
  (32, 1, "space"),
  (33, 2, "exclam"),
  (34, 3, "quotedbl"),
  (35, 4, "numbersign"),
  (36, 5, "dollar"),
  (37, 6, "percent"),
  (38, 7, "ampersand"),
  (39, 8, "quoteright"),
  (40, 9, "parenleft"),
  (41, 10, "parenright"),
  (42, 11, "asterisk"),
  (43, 12, "plus"),
  (44, 13, "comma"),
  (45, 14, "hyphen"),
  (46, 15, "period"),
  (47, 16, "slash"),
  (48, 17, "zero"),
  (49, 18, "one"),
  (50, 19, "two"),
  (51, 20, "three"),
  (52, 21, "four"),
  (53, 22, "five"),
  (54, 23, "six"),
  (55, 24, "seven"),
  (56, 25, "eight"),
  (57, 26, "nine"),
  (58, 27, "colon"),
  (59, 28, "semicolon"),
  (60, 29, "less"),
  (61, 30, "equal"),
  (62, 31, "greater"),
  (63, 32, "question"),
  (64, 33, "at"),
  (65, 34, "A"),
  (66, 35, "B"),
  (67, 36, "C"),
  (68, 37, "D"),
  (69, 38, "E"),
  (70, 39, "F"),
  (71, 40, "G"),
  (72, 41, "H"),
  (73, 42, "I"),
  (74, 43, "J"),
  (75, 44, "K"),
  (76, 45, "L"),
  (77, 46, "M"),
  (78, 47, "N"),
  (79, 48, "O"),
  (80, 49, "P"),
  (81, 50, "Q"),
  (82, 51, "R"),
  (83, 52, "S"),
  (84, 53, "T"),
  (85, 54, "U"),
  (86, 55, "V"),
  (87, 56, "W"),
  (88, 57, "X"),
  (89, 58, "Y"),
  (90, 59, "Z"),
  (91, 60, "bracketleft"),
  (92, 61, "backslash"),
  (93, 62, "bracketright"),
  (94, 63, "asciicircum"),
  (95, 64, "underscore"),
  (96, 65, "quoteleft"),
  (97, 66, "a"),
  (98, 67, "b"),
  (99, 68, "c"),
  (100, 69, "d"),
  (101, 70, "e"),
  (102, 71, "f"),
  (103, 72, "g"),
  (104, 73, "h"),
  (105, 74, "i"),
  (106, 75, "j"),
  (107, 76, "k"),
  (108, 77, "l"),
  (109, 78, "m"),
  (110, 79, "n"),
  (111, 80, "o"),
  (112, 81, "p"),
  (113, 82, "q"),
  (114, 83, "r"),
  (115, 84, "s"),
  (116, 85, "t"),
  (117, 86, "u"),
  (118, 87, "v"),
  (119, 88, "w"),
  (120, 89, "x"),
  (121, 90, "y"),
  (122, 91, "z"),
  (123, 92, "braceleft"),
  (124, 93, "bar"),
  (125, 94, "braceright"),
  (126, 95, "asciitilde"),
  (127, 0, ".notdef"),
  (128, 0, ".notdef"),
  (129, 0, ".notdef"),
  (130, 0, ".notdef"),
  (131, 0, ".notdef"),
  (132, 0, ".notdef"),
  (133, 0, ".notdef"),
  (134, 0, ".notdef"),
  (135, 0, ".notdef"),
  (136, 0, ".notdef"),
  (137, 0, ".notdef"),
  (138, 0, ".notdef"),
  (139, 0, ".notdef"),
  (140, 0, ".notdef"),
  (141, 0, ".notdef"),
  (142, 0, ".notdef"),
  (143, 0, ".notdef"),
  (144, 0, ".notdef"),
  (145, 0, ".notdef"),
  (146, 0, ".notdef"),
  (147, 0, ".notdef"),
  (148, 0, ".notdef"),
  (149, 0, ".notdef"),
  (150, 0, ".notdef"),
  (151, 0, ".notdef"),
  (152, 0, ".notdef"),
  (153, 0, ".notdef"),
  (154, 0, ".notdef"),
  (155, 0, ".notdef"),
  (156, 0, ".notdef"),
  (157, 0, ".notdef"),
  (158, 0, ".notdef"),
  (159, 0, ".notdef"),
  (160, 0, ".notdef"),
  (161, 96, "exclamdown"),
  (162, 97, "cent"),
  (163, 98, "sterling"),
  (164, 99, "fraction"),
  (165, 100, "yen"),
  (166, 101, "florin"),
  (167, 102, "section"),
  (168, 103, "currency"),
  (169, 104, "quotesingle"),
  (170, 105, "quotedblleft"),
  (171, 106, "guillemotleft"),
  (172, 107, "guilsinglleft"),
  (173, 108, "guilsinglright"),
  (174, 109, "fi"),
  (175, 110, "fl"),
  (176, 0, ".notdef"),
  (177, 111, "endash"),
  (178, 112, "dagger"),
  (179, 113, "daggerdbl"),
  (180, 114, "periodcentered"),
  (181, 0, ".notdef"),
  (182, 115, "paragraph"),
  (183, 116, "bullet"),
  (184, 117, "quotesinglbase"),
  (185, 118, "quotedblbase"),
  (186, 119, "quotedblright"),
  (187, 120, "guillemotright"),
  (188, 121, "ellipsis"),
  (189, 122, "perthousand"),
  (190, 0, ".notdef"),
  (191, 123, "questiondown"),
  (192, 0, ".notdef"),
  (193, 124, "grave"),
  (194, 125, "acute"),
  (195, 126, "circumflex"),
  (196, 127, "tilde"),
  (197, 128, "macron"),
  (198, 129, "breve"),
  (199, 130, "dotaccent"),
  (200, 131, "dieresis"),
  (201, 0, ".notdef"),
  (202, 132, "ring"),
  (203, 133, "cedilla"),
  (204, 0, ".notdef"),
  (205, 134, "hungarumlaut"),
  (206, 135, "ogonek"),
  (207, 136, "caron"),
  (208, 137, "emdash"),
  (209, 0, ".notdef"),
  (210, 0, ".notdef"),
  (211, 0, ".notdef"),
  (212, 0, ".notdef"),
  (213, 0, ".notdef"),
  (214, 0, ".notdef"),
  (215, 0, ".notdef"),
  (216, 0, ".notdef"),
  (217, 0, ".notdef"),
  (218, 0, ".notdef"),
  (219, 0, ".notdef"),
  (220, 0, ".notdef"),
  (221, 0, ".notdef"),
  (222, 0, ".notdef"),
  (223, 0, ".notdef"),
  (224, 0, ".notdef"),
  (225, 138, "AE"),
  (226, 0, ".notdef"),
  (227, 139, "ordfeminine"),
  (228, 0, ".notdef"),
  (229, 0, ".notdef"),
  (230, 0, ".notdef"),
  (231, 0, ".notdef"),
  (232, 140, "Lslash"),
  (233, 141, "Oslash"),
  (234, 142, "OE"),
  (235, 143, "ordmasculine"),
  (236, 0, ".notdef"),
  (237, 0, ".notdef"),
  (238, 0, ".notdef"),
  (239, 0, ".notdef"),
  (240, 0, ".notdef"),
  (241, 144, "ae"),
  (242, 0, ".notdef"),
  (243, 0, ".notdef"),
  (244, 0, ".notdef"),
  (245, 145, "dotlessi"),
  (246, 0, ".notdef"),
  (247, 0, ".notdef"),
  (248, 146, "lslash"),
  (249, 147, "oslash"),
  (250, 148, "oe"),
  (251, 149, "germandbls"),
  (252, 0, ".notdef"),
  (253, 0, ".notdef"),
  (254, 0, ".notdef"),
  (255, 0, ".notdef")]

/-- The arms of `get_expert`, src/compact1/encoding.rs:385-644: code, string identifier, and the name the
source writes next to it (which the macro `get!`, lines 115-122, discards). -/
def expertEncoding : List (Nat × Nat × String) := [
  (0, 0, ".notdef"),
  (1, 0, ".notdef"),
  (2, 0, ".notdef"),
  (3, 0, ".notdef"),
  (4, 0, ".notdef"),
  (5, 0, ".notdef"),
  (6, 0, ".notdef"),
  (7, 0, ".notdef"),
  (8, 0, ".notdef"),
  (9, 0, ".notdef"),
  (10, 0, ".notdef"),
  (11, 0, ".notdef"),
  (12, 0, ".notdef"),
  (13, 0, ".notdef"),
  (14, 0, ".notdef"),
  (15, 0, ".notdef"),
  (16, 0, ".notdef"),
  (17, 0, ".notdef"),
  (18, 0, ".notdef"),
  (19, 0, ".notdef"),
  (20, 0, ".notdef"),
  (21, 0, ".notdef"),
  (22, 0, ".notdef"),
  (23, 0, ".notdef"),
  (24, 0, ".notdef"),
  (25, 0, ".notdef"),
  (26, 0, ".notdef"),
  (27, 0, ".notdef"),
  (28, 0, ".notdef"),
  (29, 0, ".notdef"),
  (30, 0, ".notdef"),
  (31, 0, ".notdef"),
  (32, 1, "space"),
  (33, 229, "exclamsmall"),
  (34, 230, "Hungarumlautsmall"),
  (35, 0, ".notdef"),
  (36, 231, "dollaroldstyle"),
  (37, 232, "dollarsuperior"),
  (38, 233, "ampersandsmall"),
  (39, 234, "Acutesmall"),
  (40, 235, "parenleftsuperior"),
  (41, 236, "parenrightsuperior"),
  (42, 237, "twodotenleader"),
  (43, 238, "onedotenleader"),
  (44, 13, "comma"),
  (45, 14, "hyphen"),
  (46, 15, "period"),
  (47, 99, "fraction"),
  (48, 239, "zerooldstyle"),
  (49, 240, "oneoldstyle"),
  (50, 241, "twooldstyle"),
  (51, 242, "threeoldstyle"),
  (52, 243, "fouroldstyle"),
  (53, 244, "fiveoldstyle"),
  (54, 245, "sixoldstyle"),
  (55, 246, "sevenoldstyle"),
  (56, 247, "eightoldstyle"),
  (57, 248, "nineoldstyle"),
  (58, 27, "colon"),
  (59, 28, "semicolon"),
  (60, 249, "commasuperior"),
  (61, 250, "threequartersemdash"),
  (62, 251, "periodsuperior"),
  (63, 252, "questionsmall"),
  (64, 0, ".notdef"),
  (65, 253, "asuperior"),
  (66, 254, "bsuperior"),
  (67, 255, "centsuperior"),
  (68, 256, "dsuperior"),
  (69, 257, "esuperior"),
  (70, 0, ".notdef"),
  (71, 0, ".notdef"),
  (72, 0, ".notdef"),
  (73, 258, "isuperior"),
  (74, 0, ".notdef"),
  (75, 0, ".notdef"),
  (76, 259, "lsuperior"),
  (77, 260, "msuperior"),
  (78, 261, "nsuperior"),
  (79, 262, "osuperior"),
  (80, 0, ".notdef"),
  (81, 0, ".notdef"),
  (82, 263, "rsuperior"),
  (83, 264, "ssuperior"),
  (84, 265, "tsuperior"),
  (85, 0, ".notdef"),
  (86, 266, "ff"),
  (87, 109, "fi"),
  (88, 110, "fl"),
  (89, 267, "ffi"),
  (90, 268, "ffl"),
  (91, 269, "parenleftinferior"),
  (92, 0, ".notdef"),
  (93, 270, "parenrightinferior"),
  (94, 271, "Circumflexsmall"),
  (95, 272, "hyphensuperior"),
  (96, 273, "Gravesmall"),
  (97, 274, "Asmall"),
  (98, 275, "Bsmall"),
  (99, 276, "Csmall"),
  (100, 277, "Dsmall"),
  (101, 278, "Esmall"),
  (102, 279, "Fsmall"),
  (103, 280, "Gsmall"),
  (104, 281, "Hsmall"),
  (105, 282, "Ismall"),
  (106, 283, "Jsmall"),
  (107, 284, "Ksmall"),
  (108, 285, "Lsmall"),
  (109, 286, "Msmall"),
  (110, 287, "Nsmall"),
  (111, 288, "Osmall"),
  (112, 289, "Psmall"),
  (113, 290, "Qsmall"),
  (114, 291, "Rsmall"),
  (115, 292, "Ssmall"),
  (116, 293, "Tsmall"),
  (117, 294, "Usmall"),
  (118, 295, "Vsmall"),
  (119, 296, "Wsmall"),
  (120, 297, "Xsmall"),
  (121, 298, "Ysmall"),
  (122, 299, "Zsmall"),
  (123, 300, "colonmonetary"),
  (124, 301, "onefitted"),
  (125, 302, "rupiah"),
  (126, 303, "Tildesmall"),
  (127, 0, ".notdef"),
  (128, 0, ".notdef"),
  (129, 0, ".notdef"),
  (130, 0, ".notdef"),
  (131, 0, ".notdef"),
  (132, 0, ".notdef"),
  (133, 0, ".notdef"),
  (134, 0, ".notdef"),
  (135, 0, ".notdef"),
  (136, 0, ".notdef"),
  (137, 0, ".notdef"),
  (138, 0, ".notdef"),
  (139, 0, ".notdef"),
  (140, 0, ".notdef"),
  (141, 0, ".notdef"),
  (142, 0, ".notdef"),
  (143, 0, ".notdef"),
  (144, 0, ".notdef"),
  (145, 0, ".notdef"),
  (146, 0, ".notdef"),
  (147, 0, ".notdef"),
  (148, 0, ".notdef"),
  (149, 0, ".notdef"),
  (150, 0, ".notdef"),
  (151, 0, ".notdef"),
  (152, 0, ".notdef"),
  (153, 0, ".notdef"),
  (154, 0, ".notdef"),
  (155, 0, ".notdef"),
  (156, 0, ".notdef"),
  (157, 0, ".notdef"),
  (158, 0, ".notdef"),
  (159, 0, ".notdef"),
  (160, 0, ".notdef"),
  (161, 304, "exclamdownsmall"),
  (162, 305, "centoldstyle"),
  (163, 306, "Lslashsmall"),
  (164, 0, ".notdef"),
  (165, 0, ".notdef"),
  (166, 307, "Scaronsmall"),
  (167, 308, "Zcaronsmall"),
  (168, 309, "Dieresissmall"),
  (169, 310, "Brevesmall"),
  (170, 311, "Caronsmall"),
  (171, 0, ".notdef"),
  (172, 312, "Dotaccentsmall"),
  (173, 0, ".notdef"),
  (174, 0, ".notdef"),
  (175, 313, "Macronsmall"),
  (176, 0, ".notdef"),
  (177, 0, ".notdef"),
  (178, 314, "figuredash"),
  (179, 315, "hypheninferior"),
  (180, 0, ".notdef"),
  (181, 0, ".notdef"),
  (182, 316, "Ogoneksmall"),
  (183, 317, "Ringsmall"),
  (184, 318, "Cedillasmall"),
  (185, 0, ".notdef"),
  (186, 0, ".notdef"),
  (187, 0, ".notdef"),
  (188, 158, "onequarter"),
  (189, 155, "onehalf"),
  (190, 163, "threequarters"),
  (191, 319, "questiondownsmall"),
  (192, 320, "oneeighth"),
  (193, 321, "threeeighths"),
  (194, 322, "fiveeighths"),
  (195, 323, "seveneighths"),
  (196, 324, "onethird"),
  (197, 325, "twothirds"),
  (198, 0, ".notdef"),
  (199, 0, ".notdef"),
  (200, 326, "zerosuperior"),
  (201, 150, "onesuperior"),
  (202, 164, "twosuperior"),
  (203, 169, "threesuperior"),
  (204, 327, "foursuperior"),
  (205, 328, "fivesuperior"),
  (206, 329, "sixsuperior"),
  (207, 330, "sevensuperior"),
  (208, 331, "eightsuperior"),
  (209, 332, "ninesuperior"),
  (210, 333, "zeroinferior"),
  (211, 334, "oneinferior"),
  (212, 335, "twoinferior"),
  (213, 336, "threeinferior"),
  (214, 337, "fourinferior"),
  (215, 338, "fiveinferior"),
  (216, 339, "sixinferior"),
  (217, 340, "seveninferior"),
  (218, 341, "eightinferior"),
  (219, 342, "nineinferior"),
  (220, 343, "centinferior"),
  (221, 344, "dollarinferior"),
  (222, 345, "periodinferior"),
  (223, 346, "commainferior"),
  (224, 347, "Agravesmall"),
  (225, 348, "Aacutesmall"),
  (226, 349, "Acircumflexsmall"),
  (227, 350, "Atildesmall"),
  (228, 351, "Adieresissmall"),
  (229, 352, "Aringsmall"),
  (230, 353, "AEsmall"),
  (231, 354, "Ccedillasmall"),
  (232, 355, "Egravesmall"),
  (233, 356, "Eacutesmall"),
  (234, 357, "Ecircumflexsmall"),
  (235, 358, "Edieresissmall"),
  (236, 359, "Igravesmall"),
  (237, 360, "Iacutesmall"),
  (238, 361, "Icircumflexsmall"),
  (239, 362, "Idieresissmall"),
  (240, 363, "Ethsmall"),
  (241, 364, "Ntildesmall"),
  (242, 365, "Ogravesmall"),
  (243, 366, "Oacutesmall"),
  (244, 367, "Ocircumflexsmall"),
  (245, 368, "Otildesmall"),
  (246, 369, "Odieresissmall"),
  (247, 370, "OEsmall"),
  (248, 371, "Oslashsmall"),
  (249, 372, "Ugravesmall"),
  (250, 373, "Uacutesmall"),
  (251, 374, "Ucircumflexsmall"),
  (252, 375, "Udieresissmall"),
  (253, 376, "Yacutesmall"),
  (254, 377, "Thornsmall"),
  (255, 378, "Ydieresissmall")]

end PS.Tables
