lean/lake-manifest.json
