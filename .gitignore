.lake/
lake-manifest.json
build/
