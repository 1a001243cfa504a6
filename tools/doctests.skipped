src/build.rs:690 (3 asserts): builder arg
src/mask_password.rs:149 (1 asserts): path |
src/template.rs:34 (2 asserts): path struct
src/types.rs:134 (4 asserts): path Cow::from
src/types.rs:198 (0 asserts): path struct
src/percent_encode/decode.rs:202 (6 asserts): method bytes_fragments on decoder
src/percent_encode/decode.rs:275 (2 asserts): method bytes_fragments on decoder
src/template/context.rs:16 (0 asserts): path struct
src/template/context.rs:88 (4 asserts): path struct
src/template/context.rs:179 (2 asserts): path struct
src/template/context.rs:301 (6 asserts): path struct
src/template/string.rs:297 (2 asserts): path struct
